import Mathlib.Tactic.Linarith
import Mathlib.Tactic.NormNum
import Mathlib.Tactic.Ring
import Mathlib.Tactic.FinCases
import Mathlib.Data.Fintype.Basic
import Mathlib.Data.Fin.VecNotation
import Mathlib.Data.Rat.Defs
import Mathlib.Algebra.Order.Ring.Rat
import Verif.LongestEdge.Model

/-!
# C45: refinement takes a longest edge; C46: order of the vertices for coarsening; C64: which vertices are removed
-/

set_option linter.unusedSectionVars false

namespace Verif.LongestEdge

variable {K : Type*} [Field K] [LinearOrder K] [IsStrictOrderedRing K]

/-! ## Specification -/

/-- The edge from corner `i` to corner `j` is a longest edge of the simplex with corners `c`. -/
def IsLongest {ι P : Type*} (len : P → P → K) (c : ι → P) (i j : ι) : Prop :=
  i ≠ j ∧ ∀ k l, k ≠ l → len (c k) (c l) ≤ len (c i) (c j)

/-- Any other edge is shorter. -/
def IsUniqueLongest {ι P : Type*} (len : P → P → K) (c : ι → P) (i j : ι) : Prop :=
  i ≠ j ∧ ∀ k l, k ≠ l → (k, l) ≠ (i, j) → (k, l) ≠ (j, i) → len (c k) (c l) < len (c i) (c j)

/-- The list contains exactly the edges of the simplex. -/
def AllEdges {ι : Type*} (es : List (ι × ι)) : Prop := (∀ e ∈ es, e.1 ≠ e.2) ∧ ∀ i j, i ≠ j → (i, j) ∈ es ∨ (j, i) ∈ es

theorem allEdges_segment : AllEdges segmentEdges := by
  constructor <;> decide

theorem allEdges_triangle : AllEdges triangleEdges := by
  constructor <;> decide

theorem allEdges_tetrahedron : AllEdges tetrahedronEdges := by
  constructor <;> decide

/-! ## C45 -/

theorem fold_longest {ι : Type*} (len : ι → ι → K) (es : List (ι × ι)) : ∀ s : K × Option (ι × ι),
    let t := es.foldl (longestBody len) s
    s.1 ≤ t.1 ∧ (∀ e ∈ es, len e.1 e.2 ≤ t.1) ∧ (t = s ∨ ∃ e ∈ es, t.2 = some e ∧ t.1 = len e.1 e.2) := by
  induction es with
  | nil => intro s; simp
  | cons a es ih =>
    intro s
    obtain ⟨h1, h2, h3⟩ := ih (longestBody len s a)
    simp only [List.foldl_cons]
    have hb : s.1 ≤ (longestBody len s a).1 ∧ len a.1 a.2 ≤ (longestBody len s a).1 := by
      unfold longestBody
      split
      · rename_i h; exact ⟨h.le, le_refl _⟩
      · rename_i h; exact ⟨le_refl _, not_lt.1 h⟩
    refine ⟨hb.1.trans h1, ?_, ?_⟩
    · intro e he
      rcases List.mem_cons.1 he with rfl | he
      · exact hb.2.trans h1
      · exact h2 e he
    · rcases h3 with h3 | ⟨e, he, h3⟩
      · rw [h3]
        unfold longestBody
        split
        · exact Or.inr ⟨a, by simp, rfl, rfl⟩
        · exact Or.inl rfl
      · exact Or.inr ⟨e, by simp [he], h3⟩

theorem refinementEdge_longest {ι P : Type*} [Nontrivial ι] (len : P → P → K) (hsym : ∀ p q, len p q = len q p) (hpos : ∀ p q, 0 ≤ len p q)
    (c : ι → P) {es : List (ι × ι)} (hes : AllEdges es) :
    ∃ i j, refinementEdge (fun i j => len (c i) (c j)) es = some (i, j) ∧ (i, j) ∈ es ∧ IsLongest len c i j := by
  obtain ⟨h1, h2, h3⟩ := fold_longest (fun i j => len (c i) (c j)) es (-(10 ^ 100), none)
  have hall : ∀ k l, k ≠ l → len (c k) (c l) ≤ (es.foldl (longestBody fun i j => len (c i) (c j)) (-(10 ^ 100), none)).1 := by
    intro k l hkl
    rcases hes.2 k l hkl with h | h
    · exact h2 _ h
    · rw [hsym]; exact h2 _ h
  rcases h3 with h3 | ⟨e, he, h3, h4⟩
  · exfalso
    obtain ⟨k, l, hkl⟩ := exists_pair_ne ι
    have := hall k l hkl
    rw [h3] at this
    have h0 : (0 : K) < 10 ^ 100 := by positivity
    have := hpos (c k) (c l)
    simp only at *
    linarith
  · refine ⟨e.1, e.2, h3, he, hes.1 e he, ?_⟩
    intro k l hkl
    rw [← h4]
    exact hall k l hkl

/-- C45: for segments, triangles and tetrahedra the refinement strategy chooses the center of a longest edge. -/
theorem C45_longest {P : Type*} (len : P → P → K) (center : P → P → P) (hsym : ∀ p q, len p q = len q p) (hpos : ∀ p q, 0 ≤ len p q) :
    (∀ c : Fin 2 → P, ∃ i j, IsLongest len c i j ∧ refinementPoint len center c segmentEdges = some (center (c i) (c j))) ∧
    (∀ c : Fin 3 → P, ∃ i j, IsLongest len c i j ∧ refinementPoint len center c triangleEdges = some (center (c i) (c j))) ∧
    (∀ c : Fin 4 → P, ∃ i j, IsLongest len c i j ∧ refinementPoint len center c tetrahedronEdges = some (center (c i) (c j))) := by
  refine ⟨fun c => ?_, fun c => ?_, fun c => ?_⟩
  · obtain ⟨i, j, h1, -, h2⟩ := refinementEdge_longest len hsym hpos c allEdges_segment
    exact ⟨i, j, h2, by simp [refinementPoint, h1]⟩
  · obtain ⟨i, j, h1, -, h2⟩ := refinementEdge_longest len hsym hpos c allEdges_triangle
    exact ⟨i, j, h2, by simp [refinementPoint, h1]⟩
  · obtain ⟨i, j, h1, -, h2⟩ := refinementEdge_longest len hsym hpos c allEdges_tetrahedron
    exact ⟨i, j, h2, by simp [refinementPoint, h1]⟩

theorem point_of_unique {ι P : Type*} [Nontrivial ι] (len : P → P → K) (center : P → P → P) (hsym : ∀ p q, len p q = len q p)
    (hcen : ∀ p q, center p q = center q p) (hpos : ∀ p q, 0 ≤ len p q) (c : ι → P) {es : List (ι × ι)} (hes : AllEdges es) {i j : ι}
    (hu : IsUniqueLongest len c i j) : refinementPoint len center c es = some (center (c i) (c j)) := by
  obtain ⟨k, l, h1, -, h2, h3⟩ := refinementEdge_longest len hsym hpos c hes
  have hkl : (k, l) = (i, j) ∨ (k, l) = (j, i) := by
    by_contra h
    push Not at h
    exact absurd (h3 i j hu.1) (not_le.2 (hu.2 k l h2 h.1 h.2))
  unfold refinementPoint
  rw [h1]
  rcases hkl with h | h
  · obtain ⟨rfl, rfl⟩ := Prod.mk.injEq .. ▸ h
    rfl
  · obtain ⟨rfl, rfl⟩ := Prod.mk.injEq .. ▸ h
    simp [hcen]

theorem unique_perm {ι P : Type*} (len : P → P → K) (c : ι → P) {i j : ι} (hu : IsUniqueLongest len c i j) (σ : Equiv.Perm ι) :
    IsUniqueLongest len (c ∘ σ) (σ.symm i) (σ.symm j) := by
  refine ⟨fun h => hu.1 (σ.symm.injective h), ?_⟩
  intro k l hkl h1 h2
  have := hu.2 (σ k) (σ l) (fun h => hkl (σ.injective h))
    (by intro h; apply h1; rw [Prod.mk.injEq] at h ⊢; rw [← h.1, ← h.2]; simp)
    (by intro h; apply h2; rw [Prod.mk.injEq] at h ⊢; rw [← h.1, ← h.2]; simp)
  simpa using this

/-- C45: if the longest edge is unique, the point does not depend on the order in which the corners are stored. -/
theorem C45_order {P : Type*} (len : P → P → K) (center : P → P → P) (hsym : ∀ p q, len p q = len q p)
    (hcen : ∀ p q, center p q = center q p) (hpos : ∀ p q, 0 ≤ len p q) :
    (∀ (c : Fin 3 → P) (σ : Equiv.Perm (Fin 3)) (i j : Fin 3), IsUniqueLongest len c i j →
      refinementPoint len center (c ∘ σ) triangleEdges = refinementPoint len center c triangleEdges) ∧
    (∀ (c : Fin 4 → P) (σ : Equiv.Perm (Fin 4)) (i j : Fin 4), IsUniqueLongest len c i j →
      refinementPoint len center (c ∘ σ) tetrahedronEdges = refinementPoint len center c tetrahedronEdges) := by
  constructor
  · intro c σ i j hu
    rw [point_of_unique len center hsym hcen hpos c allEdges_triangle hu,
      point_of_unique len center hsym hcen hpos (c ∘ σ) allEdges_triangle (unique_perm len c hu σ)]
    simp
  · intro c σ i j hu
    rw [point_of_unique len center hsym hcen hpos c allEdges_tetrahedron hu,
      point_of_unique len center hsym hcen hpos (c ∘ σ) allEdges_tetrahedron (unique_perm len c hu σ)]
    simp

/-- Points on a line: the corners 0, 1, 5 have the unique longest edge from 0 to 5. -/
example : refinementPoint (K := ℚ) (P := ℚ) (fun p q => |p - q|) (fun p q => (p + q) / 2) ![0, 1, 5] triangleEdges = some (5 / 2) ∧
    IsUniqueLongest (K := ℚ) (fun p q : ℚ => |p - q|) ![0, 1, 5] 0 2 := by
  constructor
  · decide +kernel
  · unfold IsUniqueLongest
    decide +kernel

/-- With two longest edges the point depends on the order of the corners: the triangle with sides 13, 13, 10. -/
theorem C45_ties_false : ∃ (len : ℚ × ℚ → ℚ × ℚ → ℚ) (c : Fin 3 → ℚ × ℚ) (σ : Equiv.Perm (Fin 3)),
    (∀ i j, len (c i) (c j) ^ 2 = ((c i).1 - (c j).1) ^ 2 + ((c i).2 - (c j).2) ^ 2) ∧
    refinementPoint len (fun p q => ((p.1 + q.1) / 2, (p.2 + q.2) / 2)) (c ∘ σ) triangleEdges ≠
      refinementPoint len (fun p q => ((p.1 + q.1) / 2, (p.2 + q.2) / 2)) c triangleEdges := by
  refine ⟨fun p q => if (p.1 - q.1) ^ 2 + (p.2 - q.2) ^ 2 = 169 then 13 else if (p.1 - q.1) ^ 2 + (p.2 - q.2) ^ 2 = 100 then 10 else 0,
    ![(0, 12), (-5, 0), (5, 0)], Equiv.swap 1 2, by decide +kernel, ?_⟩
  have h : (![(0, 12), (-5, 0), (5, 0)] : Fin 3 → ℚ × ℚ) ∘ Equiv.swap 1 2 = ![(0, 12), (5, 0), (-5, 0)] := by
    ext i <;> fin_cases i <;> rfl
  rw [h]
  decide +kernel

/-! ## C46 -/

theorem before_iff (a b : Info K) : before a b = true ↔
    a.level < b.level ∨ a.sum < b.sum - 1 / 10 ^ 14 ∨ (a.constrained = false ∧ b.constrained = true) := by
  unfold before
  by_cases h1 : a.level < b.level
  · simp [h1]
  · by_cases h2 : a.sum < b.sum - 1 / 10 ^ 14
    · simp [h1, h2]
    · simp only [h1, h2, if_false, false_or]
      cases a.constrained <;> cases b.constrained <;> simp

/-- The comparison is not a strict weak ordering: in the right triangle with legs 4 and 3, if the corner at the end of the
longer leg was inserted before the others, it is before the corner with the right angle and the other way round. -/
theorem C46_false : ∃ (len : Fin 3 → Fin 3 → ℚ) (level : Fin 3 → Nat),
    (∀ i j, len i j = len j i) ∧ (∀ i j k, i ≠ j → j ≠ k → i ≠ k → len i k < len i j + len j k) ∧
    ¬ StrictWeak (fun a b => before ⟨level a, edgeSum len triangleEdges a, false⟩ ⟨level b, edgeSum len triangleEdges b, false⟩) [0, 1, 2] := by
  refine ⟨fun i j => if i = j then 0 else if i + j = 1 then 4 else if i + j = 2 then 3 else 5, ![1, 0, 1], by decide +kernel,
    by decide +kernel, ?_⟩
  rintro ⟨h1, h2, -⟩
  have := h2 0 (by simp) 1 (by simp) 0 (by simp) (by decide +kernel) (by decide +kernel)
  rw [h1 0 (by simp)] at this
  exact absurd this (by decide)

/-- Also for equal levels: the tolerance makes incomparability not transitive. -/
theorem C46_tolerance_false : ∃ (len : Fin 3 → Fin 3 → ℚ),
    (∀ i j, len i j = len j i) ∧ (∀ i j k, i ≠ j → j ≠ k → i ≠ k → len i k < len i j + len j k) ∧
    ¬ StrictWeak (fun a b => before ⟨0, edgeSum len triangleEdges a, false⟩ ⟨0, edgeSum len triangleEdges b, false⟩) [0, 1, 2] := by
  refine ⟨fun i j => if i = j then 0 else if i + j = 1 then 1 else if i + j = 2 then 1 + 6 / 10 ^ 15 else 1 + 12 / 10 ^ 15,
    by decide +kernel, by decide +kernel, ?_⟩
  rintro ⟨h1, -, h3⟩
  have := h3 0 (by simp) 1 (by simp) 2 (by simp) (by decide +kernel) (by decide +kernel) (by decide +kernel) (by decide +kernel)
  revert this
  decide +kernel

/-- C46: exactly when two vertices are ranked before each other: two of the three criteria (level, edge lengths, constraint)
decide differently. -/
theorem C46_conflict (a b : Info K) : (before a b = true ∧ before b a = true) ↔
    (a.level < b.level ∧ (b.sum < a.sum - 1 / 10 ^ 14 ∨ (b.constrained = false ∧ a.constrained = true))) ∨
    (b.level < a.level ∧ (a.sum < b.sum - 1 / 10 ^ 14 ∨ (a.constrained = false ∧ b.constrained = true))) ∨
    (a.sum < b.sum - 1 / 10 ^ 14 ∧ b.constrained = false ∧ a.constrained = true) ∨
    (b.sum < a.sum - 1 / 10 ^ 14 ∧ a.constrained = false ∧ b.constrained = true) := by
  rw [before_iff, before_iff]
  have hε : (0 : K) < 1 / 10 ^ 14 := by positivity
  constructor
  · rintro ⟨h1 | h1 | h1, h2 | h2 | h2⟩
    · omega
    · exact Or.inl ⟨h1, Or.inl h2⟩
    · exact Or.inl ⟨h1, Or.inr h2⟩
    · exact Or.inr (Or.inl ⟨h2, Or.inl h1⟩)
    · exfalso; linarith
    · exact Or.inr (Or.inr (Or.inl ⟨h1, h2⟩))
    · exact Or.inr (Or.inl ⟨h2, Or.inr h1⟩)
    · exact Or.inr (Or.inr (Or.inr ⟨h2, h1⟩))
    · rw [h1.1] at h2; exact absurd h2.2 (by simp)
  · rintro (⟨h, h2 | h2⟩ | ⟨h, h2 | h2⟩ | ⟨h, h2⟩ | ⟨h, h2⟩)
    · exact ⟨Or.inl h, Or.inr (Or.inl h2)⟩
    · exact ⟨Or.inl h, Or.inr (Or.inr h2)⟩
    · exact ⟨Or.inr (Or.inl h2), Or.inl h⟩
    · exact ⟨Or.inr (Or.inr h2), Or.inl h⟩
    · exact ⟨Or.inr (Or.inl h), Or.inr (Or.inr h2)⟩
    · exact ⟨Or.inr (Or.inr h2), Or.inr (Or.inl h)⟩

/-- C46 for vertices of the same level, all constrained or none, whose sums of edge lengths are equal or differ by more than
the tolerance. -/
theorem C46_partial {l : List (Info K)} (hlev : ∀ a ∈ l, ∀ b ∈ l, a.level = b.level) (hcon : ∀ a ∈ l, ∀ b ∈ l, a.constrained = b.constrained)
    (hsum : ∀ a ∈ l, ∀ b ∈ l, a.sum = b.sum ∨ 1 / 10 ^ 14 < |a.sum - b.sum|) : StrictWeak before l := by
  have hε : (0 : K) < 1 / 10 ^ 14 := by positivity
  have key : ∀ a ∈ l, ∀ b ∈ l, (before a b = true ↔ a.sum < b.sum) := by
    intro a ha b hb
    rw [before_iff]
    constructor
    · rintro (h | h | h)
      · exact absurd (hlev a ha b hb) (by omega)
      · linarith
      · rw [hcon a ha b hb, h.2] at h; exact absurd h.1 (by simp)
    · intro h
      rcases hsum a ha b hb with h' | h'
      · exact absurd h' h.ne
      · rw [abs_of_neg (by linarith)] at h'
        exact Or.inr (Or.inl (by linarith))
  have keyf : ∀ a ∈ l, ∀ b ∈ l, (before a b = false ↔ b.sum ≤ a.sum) := by
    intro a ha b hb
    rw [← not_lt, ← key a ha b hb, Bool.not_eq_true]
  refine ⟨?_, ?_, ?_⟩
  · intro a ha
    rw [keyf a ha a ha]
  · intro a ha b hb c hc h1 h2
    rw [key a ha b hb] at h1
    rw [key b hb c hc] at h2
    rw [key a ha c hc]
    exact h1.trans h2
  · intro a ha b hb c hc h1 h2 h3 h4
    rw [keyf a ha b hb] at h1
    rw [keyf b hb a ha] at h2
    rw [keyf b hb c hc] at h3
    rw [keyf c hc b hb] at h4
    rw [keyf a ha c hc, keyf c hc a ha]
    exact ⟨h3.trans h1, h2.trans h4⟩

example : StrictWeak (α := Info ℚ) before [⟨0, 7, false⟩, ⟨0, 9, false⟩, ⟨0, 8, false⟩] := by
  apply C46_partial
  · decide +kernel
  · decide +kernel
  · decide +kernel

/-! ## C64 -/

theorem coarsening_mem {ι : Type*} {attr : ι → Info K} {vs : List ι} {v : ι} (h : Coarsening attr vs v)
    (hs : StrictWeak (fun a b => before (attr a) (attr b)) vs) : v ∈ vs ∧ ∀ w ∈ vs, before (attr w) (attr v) = false := by
  obtain ⟨r, h1, h2⟩ := h
  obtain ⟨hp, hw⟩ := h1 hs
  cases r with
  | nil => simp at h2
  | cons a r =>
    simp only [List.head?_cons, Option.some.injEq] at h2
    subst h2
    refine ⟨hp.subset (by simp), ?_⟩
    intro w hw'
    rcases List.mem_cons.1 (hp.symm.subset hw') with rfl | hm
    · exact hs.1 w hw'
    · exact (List.pairwise_cons.1 hw).1 w hm

/-- C125 for bulk elements: if the comparison is a strict weak ordering for the vertices, the vertex that is returned is one of
the element, no vertex of the element has a lower level, shorter edges, or less constraints. -/
theorem C125_chosen_partial {ι : Type*} {attr : ι → Info K} {vs : List ι} {v : ι} (h : Coarsening attr vs v)
    (hs : StrictWeak (fun a b => before (attr a) (attr b)) vs) :
    v ∈ vs ∧ ∀ w ∈ vs, (attr v).level ≤ (attr w).level ∧ (attr v).sum ≤ (attr w).sum + 1 / 10 ^ 14 ∧
      ((attr v).constrained = true → (attr w).constrained = true) := by
  obtain ⟨h1, h2⟩ := coarsening_mem h hs
  refine ⟨h1, fun w hw => ?_⟩
  have := h2 w hw
  rw [← Bool.not_eq_true, before_iff] at this
  push Not at this
  refine ⟨this.1, by linarith [this.2.1], ?_⟩
  intro hc
  by_contra hn
  exact this.2.2 (by simpa using hn) hc

/-- The comment "higher insertionLevel gives higher priority" is false: of the vertices of an equilateral triangle, one of
which was inserted by refinement, one of the old vertices is returned, whatever the sort does. -/
theorem C125_level_false : ∃ (attr : Fin 3 → Info ℚ), (∃ v, Coarsening attr [0, 1, 2] v) ∧
    (∀ i j, (attr i).sum = (attr j).sum ∧ (attr i).constrained = (attr j).constrained) ∧ (attr 2).level = 1 ∧
    ∀ v, Coarsening attr [0, 1, 2] v → (attr v).level = 0 := by
  have hs : StrictWeak (fun a b => before ((![⟨0, 2, false⟩, ⟨0, 2, false⟩, ⟨1, 2, false⟩] : Fin 3 → Info ℚ) a)
      ((![⟨0, 2, false⟩, ⟨0, 2, false⟩, ⟨1, 2, false⟩] : Fin 3 → Info ℚ) b)) [0, 1, 2] := by
    refine ⟨?_, ?_, ?_⟩ <;> beta_reduce <;> decide +kernel
  refine ⟨![⟨0, 2, false⟩, ⟨0, 2, false⟩, ⟨1, 2, false⟩], ⟨0, [0, 1, 2], fun _ => ⟨List.Perm.refl _, by decide +kernel⟩, rfl⟩, by decide +kernel, rfl, ?_⟩
  intro v hv
  have := (C125_chosen_partial hv hs).2 0 (by simp)
  exact Nat.le_zero.1 this.1

/-- A corner of the domain may be removed: in a triangle with two corners and a vertex that was inserted at the boundary, one
of the corners is returned, whatever the sort does. -/
theorem C125_corner_false : ∃ (len : Fin 3 → Fin 3 → ℚ) (level : Fin 3 → Nat), level = ![0, 0, 1] ∧ (∀ i j, len i j = len j i) ∧
    (∀ i j k, i ≠ j → j ≠ k → i ≠ k → len i k < len i j + len j k) ∧
    (∃ v, Coarsening (fun i => ⟨level i, edgeSum len triangleEdges i, true⟩) [0, 1, 2] v) ∧
    ∀ v, Coarsening (fun i => ⟨level i, edgeSum len triangleEdges i, true⟩) [0, 1, 2] v → v ≠ 2 := by
  have hs : StrictWeak (fun a b => before (⟨(![0, 0, 1] : Fin 3 → Nat) a, edgeSum (fun i j : Fin 3 => if i = j then (0 : ℚ) else if i + j = 1 then 2 else 3) triangleEdges a, true⟩ : Info ℚ)
      ⟨(![0, 0, 1] : Fin 3 → Nat) b, edgeSum (fun i j : Fin 3 => if i = j then (0 : ℚ) else if i + j = 1 then 2 else 3) triangleEdges b, true⟩) [0, 1, 2] := by
    refine ⟨?_, ?_, ?_⟩ <;> beta_reduce <;> decide +kernel
  refine ⟨fun i j => if i = j then 0 else if i + j = 1 then 2 else 3, ![0, 0, 1], rfl, by decide +kernel, by decide +kernel,
    ⟨0, [0, 1, 2], fun _ => ⟨List.Perm.refl _, by decide +kernel⟩, rfl⟩, ?_⟩
  rintro v hv rfl
  have := (C125_chosen_partial hv hs).2 0 (by simp)
  exact absurd this.1 (by decide)

/-- C64 for interface elements: a vertex that is returned has exactly two incident interface elements, so it is neither a tip
nor a junction; nothing is returned only if there is no such vertex. -/
theorem C64_interface {ι : Type*} (count : ι → Nat) (vs : List ι) :
    (∀ v, icoarsening count vs = some v → v ∈ vs ∧ count v = 2) ∧ (icoarsening count vs = none ↔ ∀ v ∈ vs, count v ≠ 2) := by
  constructor
  · intro v hv
    exact ⟨List.mem_of_find?_eq_some hv, by simpa [isRemoveable] using List.find?_some hv⟩
  · unfold icoarsening
    rw [List.find?_eq_none]
    simp [isRemoveable]

example : icoarsening (fun v : Nat => if v = 3 then 1 else 2) [3, 4] = some 4 := by decide

end Verif.LongestEdge
