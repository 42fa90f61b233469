import Verif.Refine.Global
import Verif.Indicator.Props
import Mathlib.Logic.Relation

/-!
# C221, C222: repeated marking and adaptation ends
-/

namespace Verif.Refine

open Finset

set_option linter.unusedSectionVars false

variable {K : Type*} [Field K] [LinearOrder K] [IsStrictOrderedRing K] {d w : ℕ}

/-! ## Specification -/

/-- Square of the length. -/
def sq (p q : Fin w → K) : K := ∑ k, (p k - q k) ^ 2

/-- `a` and `b` are the end points of an edge. -/
def IsEdge (M : Mesh (Fin w → K) d) (a b : ℕ) : Prop := a ≠ b ∧ ∃ c ∈ M.cells, (∃ i, c i = a) ∧ ∃ j, c j = b

/-- No edge of the mesh is longer than the edge from `a` to `b`. -/
def IsLongestEdge (M : Mesh (Fin w → K) d) (a b : ℕ) : Prop := IsEdge M a b ∧ ∀ a' b', IsEdge M a' b' → sq (M.pos a') (M.pos b') ≤ sq (M.pos a) (M.pos b)

/-- An edge that is longer than `√t` is halved: all elements at this edge are divided. -/
def Halving (t : K) (M M' : Mesh (Fin w → K) d) : Prop :=
  ∃ a b m, IsEdge M a b ∧ t < sq (M.pos a) (M.pos b) ∧ Fresh M m ∧ M' = insertAt M {a, b} m ((1 / 2 : K) • (M.pos a + M.pos b))

/-- Any number of edges longer than `√t` is halved, one after the other. -/
def Halvings (t : K) : Mesh (Fin w → K) d → Mesh (Fin w → K) d → Prop := Relation.ReflTransGen (Halving t)

/-! ## Proofs -/

theorem sq_comm (p q : Fin w → K) : sq p q = sq q p := by
  unfold sq
  exact Finset.sum_congr rfl fun k _ => by ring

theorem sq_nonneg' (p q : Fin w → K) : 0 ≤ sq p q := Finset.sum_nonneg fun k _ => by positivity

/-- The square of the length of a median. -/
theorem sq_median (p q r : Fin w → K) : sq ((1 / 2 : K) • (p + q)) r = (2 * sq p r + 2 * sq q r - sq p q) / 4 := by
  unfold sq
  rw [Finset.mul_sum, Finset.mul_sum, ← Finset.sum_add_distrib, ← Finset.sum_sub_distrib, div_eq_mul_inv _ (4 : K), Finset.sum_mul]
  refine Finset.sum_congr rfl fun k _ => ?_
  simp only [Pi.smul_apply, Pi.add_apply, smul_eq_mul]
  ring

theorem sq_half (p q : Fin w → K) : sq ((1 / 2 : K) • (p + q)) p = sq p q / 4 := by
  rw [sq_median, sq_comm q p]
  have : sq p p = 0 := by simp [sq]
  rw [this]
  ring

/-- What happens to the edges. -/
theorem edges_insertAt {M : Mesh (Fin w → K) d} {a b m : ℕ} {x : Fin w → K} (hinj : ∀ c ∈ M.cells, Function.Injective c) (hm : Fresh M m) {u v : ℕ}
    (h : IsEdge (insertAt M {a, b} m x) u v) :
    (IsEdge M u v ∧ ({u, v} : Finset ℕ) ≠ {a, b} ∧ u ≠ m ∧ v ≠ m) ∨
    ∃ y, ((u = m ∧ v = y) ∨ (v = m ∧ u = y)) ∧ y ≠ m ∧ (∃ c ∈ M.cells, (∃ i, c i = a) ∧ (∃ i, c i = b) ∧ ∃ i, c i = y) := by
  obtain ⟨hne, c', hc', ⟨i, rfl⟩, ⟨j, rfl⟩⟩ := h
  obtain ⟨c, hc, ⟨hF, rfl⟩ | ⟨hF, k, hk, rfl⟩⟩ := mem_insertAt.1 hc'
  · refine Or.inl ⟨⟨hne, c', hc, ⟨i, rfl⟩, ⟨j, rfl⟩⟩, fun he => hF ?_, hm c' hc i, hm c' hc j⟩
    rw [← he]
    intro v hv
    simp only [Finset.mem_insert, Finset.mem_singleton] at hv
    rcases hv with rfl | rfl
    · exact mem_verts.2 ⟨i, rfl⟩
    · exact mem_verts.2 ⟨j, rfl⟩
  · have ha : ∃ i, c i = a := mem_verts.1 (hF (by simp))
    have hb : ∃ i, c i = b := mem_verts.1 (hF (by simp))
    by_cases hi : i = k
    · subst hi
      have hj : j ≠ i := by rintro rfl; exact hne rfl
      exact Or.inr ⟨c j, Or.inl ⟨by simp, by rw [Function.update_of_ne hj]⟩, hm c hc j, c, hc, ha, hb, j, rfl⟩
    · by_cases hj : j = k
      · subst hj
        exact Or.inr ⟨c i, Or.inr ⟨by simp, by rw [Function.update_of_ne hi]⟩, hm c hc i, c, hc, ha, hb, i, rfl⟩
      · rw [Function.update_of_ne hi, Function.update_of_ne hj] at hne ⊢
        refine Or.inl ⟨⟨hne, c, hc, ⟨i, rfl⟩, ⟨j, rfl⟩⟩, fun he => ?_, hm c hc i, hm c hc j⟩
        have : c k ∈ ({c i, c j} : Finset ℕ) := by rw [he]; exact hk
        simp only [Finset.mem_insert, Finset.mem_singleton] at this
        rcases this with h | h
        · exact hi (hinj c hc h).symm
        · exact hj (hinj c hc h).symm

theorem injective_insertAt {M : Mesh (Fin w → K) d} {F : Finset ℕ} {m : ℕ} {x : Fin w → K} (hinj : ∀ c ∈ M.cells, Function.Injective c) (hm : Fresh M m) :
    ∀ c ∈ (insertAt M F m x).cells, Function.Injective c := by
  intro c' hc'
  obtain ⟨c2, hc2, h | ⟨-, i, -, rfl⟩⟩ := mem_insertAt.1 hc'
  · rw [h.2]; exact hinj c2 hc2
  · exact injective_update (hinj c2 hc2) (hm c2 hc2) i

theorem IsEdge.symm {M : Mesh (Fin w → K) d} {a b : ℕ} (h : IsEdge M a b) : IsEdge M b a :=
  ⟨h.1.symm, h.2.imp fun _ h => ⟨h.1, h.2.2, h.2.1⟩⟩

theorem IsEdge.ne_fresh {M : Mesh (Fin w → K) d} {a b m : ℕ} (h : IsEdge M a b) (hm : Fresh M m) : a ≠ m ∧ b ≠ m := by
  obtain ⟨-, c, hc, ⟨i, rfl⟩, ⟨j, rfl⟩⟩ := h
  exact ⟨hm c hc i, hm c hc j⟩

/-- One halving: edges stay as they are, vanish, or are new and then shorter than the longest edge before by a fixed amount. -/
theorem halving_edges {t B : K} {M M' : Mesh (Fin w → K) d} (hinj : ∀ c ∈ M.cells, Function.Injective c) (h : Halving t M M') (ht : 0 ≤ t)
    (hB : ∀ a b, IsEdge M a b → sq (M.pos a) (M.pos b) ≤ B) {u v : ℕ} (hu : IsEdge M' u v) :
    (IsEdge M u v ∧ sq (M'.pos u) (M'.pos v) = sq (M.pos u) (M.pos v)) ∨ sq (M'.pos u) (M'.pos v) ≤ B - t / 4 := by
  obtain ⟨a, b, m, hab, hl, hm, rfl⟩ := h
  have hpos : ∀ y, y ≠ m → (insertAt M {a, b} m ((1 / 2 : K) • (M.pos a + M.pos b))).pos y = M.pos y := fun y hy => Function.update_of_ne hy _ _
  have hposm : (insertAt M {a, b} m ((1 / 2 : K) • (M.pos a + M.pos b))).pos m = (1 / 2 : K) • (M.pos a + M.pos b) := Function.update_self _ _ _
  rcases edges_insertAt hinj hm hu with ⟨h1, -, h2, h3⟩ | ⟨y, hy, hym, c, hc, ha, hb, hcy⟩
  · exact Or.inl ⟨h1, by rw [hpos u h2, hpos v h3]⟩
  · refine Or.inr ?_
    have key : sq ((1 / 2 : K) • (M.pos a + M.pos b)) (M.pos y) ≤ B - t / 4 := by
      have hL := hB a b hab
      by_cases hya : y = a
      · subst hya
        rw [sq_half]
        linarith
      · by_cases hyb : y = b
        · subst hyb
          rw [add_comm, sq_half, sq_comm]
          linarith
        · rw [sq_median]
          have h1 := hB a y ⟨Ne.symm hya, c, hc, ha, hcy⟩
          have h2 := hB b y ⟨Ne.symm hyb, c, hc, hb, hcy⟩
          linarith
    rcases hy with ⟨rfl, rfl⟩ | ⟨rfl, rfl⟩
    · rw [hposm, hpos _ hym]
      exact key
    · rw [hposm, hpos _ hym, sq_comm]
      exact key

/-- Any number of halvings. -/
theorem halvings_edges {t B : K} (ht : 0 ≤ t) {M M' : Mesh (Fin w → K) d} (hinj : ∀ c ∈ M.cells, Function.Injective c) (h : Halvings t M M')
    (hB : ∀ a b, IsEdge M a b → sq (M.pos a) (M.pos b) ≤ B) :
    (∀ c ∈ M'.cells, Function.Injective c) ∧ (∀ a b, IsEdge M' a b → sq (M'.pos a) (M'.pos b) ≤ B) ∧
    ∀ u v, IsEdge M' u v → (IsEdge M u v ∧ sq (M'.pos u) (M'.pos v) = sq (M.pos u) (M.pos v)) ∨ sq (M'.pos u) (M'.pos v) ≤ B - t / 4 := by
  induction h with
  | refl => exact ⟨hinj, hB, fun u v huv => Or.inl ⟨huv, rfl⟩⟩
  | @tail M1 M2 _ hstep ih =>
    obtain ⟨i1, i2, i3⟩ := ih
    have key := fun u v => @halving_edges _ _ _ _ _ _ t B M1 M2 i1 hstep ht i2 u v
    refine ⟨?_, fun a b hab => ?_, fun u v huv => ?_⟩
    · obtain ⟨a, b, m, -, -, hm, rfl⟩ := hstep
      exact injective_insertAt i1 hm
    · rcases key a b hab with ⟨h1, h2⟩ | h
      · rw [h2]
        exact i2 a b h1
      · linarith
    · rcases key u v huv with ⟨h1, h2⟩ | h
      · rcases i3 u v h1 with ⟨h3, h4⟩ | h3
        · exact Or.inl ⟨h3, h2.trans h4⟩
        · exact Or.inr (h2 ▸ h3)
      · exact Or.inr h

/-- The edges longer than a bound. -/
def longEdges (M : Mesh (Fin w → K) d) (s : K) : Set (ℕ × ℕ) := {e | IsEdge M e.1 e.2 ∧ s < sq (M.pos e.1) (M.pos e.2)}

theorem longEdges_finite (M : Mesh (Fin w → K) d) (s : K) : (longEdges M s).Finite := by
  refine Set.Finite.subset (Finset.finite_toSet ((M.cells.toFinset.biUnion verts) ×ˢ (M.cells.toFinset.biUnion verts))) ?_
  rintro ⟨a, b⟩ ⟨⟨-, c, hc, ha, hb⟩, -⟩
  simp only [Finset.coe_product, Set.mem_prod, Finset.mem_coe, Finset.mem_biUnion, List.mem_toFinset]
  exact ⟨⟨c, hc, mem_verts.2 ha⟩, ⟨c, hc, mem_verts.2 hb⟩⟩

theorem ends_aux {t : K} (ht : 0 < t) (k : ℕ) : ∀ (n : ℕ) (M : ℕ → Mesh (Fin w → K) d), (∀ c ∈ (M 0).cells, Function.Injective c) →
    (∀ i, Halvings t (M i) (M (i + 1))) → (∀ a b, IsEdge (M 0) a b → sq ((M 0).pos a) ((M 0).pos b) ≤ t + k * (t / 4)) →
    (longEdges (M 0) (t + k * (t / 4) - t / 4)).ncard ≤ n →
    ∃ N, ∀ i ≥ N, ∀ a b, IsLongestEdge (M i) a b → IsEdge (M (i + 1)) a b := by
  induction k with
  | zero =>
    intro n M hinj hM hB _
    have key : ∀ i, M i = M 0 := by
      intro i
      induction i with
      | zero => rfl
      | succ i ih =>
        have h := hM i
        rw [ih] at h
        rcases Relation.ReflTransGen.cases_head h with h | ⟨M1, ⟨a, b, m, hab, hl, -⟩, -⟩
        · exact h.symm
        · have := hB a b hab
          simp only [Nat.cast_zero, zero_mul, add_zero] at this
          exact absurd hl (not_lt.2 this)
    exact ⟨0, fun i _ a b hab => by rw [key (i + 1), ← key i]; exact hab.1⟩
  | succ k ihk =>
    intro n
    induction n with
    | zero =>
      intro M hinj hM hB hn
      have hempty : longEdges (M 0) (t + ((k + 1 : ℕ) : K) * (t / 4) - t / 4) = ∅ := by
        rw [← Set.ncard_eq_zero (longEdges_finite _ _)]
        omega
      refine ihk _ M hinj hM (fun a b hab => ?_) le_rfl
      by_contra hlt
      have : ((a, b) : ℕ × ℕ) ∈ longEdges (M 0) (t + ((k + 1 : ℕ) : K) * (t / 4) - t / 4) := by
        refine ⟨hab, ?_⟩
        push_cast
        push Not at hlt
        show t + ((k : K) + 1) * (t / 4) - t / 4 < sq ((M 0).pos a) ((M 0).pos b)
        linarith
      rw [hempty] at this
      exact this
    | succ n ihn =>
      intro M hinj hM hB hn
      by_cases hall : ∀ i, ∀ a b, IsLongestEdge (M i) a b → IsEdge (M (i + 1)) a b
      · exact ⟨0, fun i _ => hall i⟩
      · push Not at hall
        obtain ⟨i, a, b, hab, hgone⟩ := hall
        -- the state before this step
        have inv : ∀ j, (∀ c ∈ (M j).cells, Function.Injective c) ∧
            (∀ a b, IsEdge (M j) a b → sq ((M j).pos a) ((M j).pos b) ≤ t + ((k + 1 : ℕ) : K) * (t / 4)) ∧
            longEdges (M j) (t + ((k + 1 : ℕ) : K) * (t / 4) - t / 4) ⊆ longEdges (M 0) (t + ((k + 1 : ℕ) : K) * (t / 4) - t / 4) := by
          intro j
          induction j with
          | zero => exact ⟨hinj, hB, subset_rfl⟩
          | succ j ih =>
            obtain ⟨h1, h2, h3⟩ := ih
            obtain ⟨g1, g2, g3⟩ := halvings_edges ht.le h1 (hM j) h2
            refine ⟨g1, g2, fun e he => h3 ?_⟩
            rcases g3 e.1 e.2 he.1 with ⟨h4, h5⟩ | h4
            · exact ⟨h4, by rw [← h5]; exact he.2⟩
            · exact absurd he.2 (not_lt.2 h4)
        obtain ⟨h1, h2, h3⟩ := inv i
        obtain ⟨g1, g2, g3⟩ := halvings_edges ht.le h1 (hM i) h2
        obtain ⟨-, -, g4⟩ := inv (i + 1)
        by_cases hlong : t + ((k + 1 : ℕ) : K) * (t / 4) - t / 4 < sq ((M i).pos a) ((M i).pos b)
        · -- a long edge is gone
          have hlt : (longEdges (M (i + 1)) (t + ((k + 1 : ℕ) : K) * (t / 4) - t / 4)).ncard <
              (longEdges (M 0) (t + ((k + 1 : ℕ) : K) * (t / 4) - t / 4)).ncard := by
            refine Set.ncard_lt_ncard ⟨g4, fun hsub => ?_⟩ (longEdges_finite _ _)
            have := hsub (h3 (show ((a, b) : ℕ × ℕ) ∈ _ from ⟨hab.1, hlong⟩))
            exact hgone this.1
          obtain ⟨N, hN⟩ := ihn (fun j => M (i + 1 + j)) g1 (fun j => hM (i + 1 + j)) g2 (by show (longEdges (M (i + 1)) _).ncard ≤ n; omega)
          refine ⟨i + 1 + N, fun j hj => ?_⟩
          have := hN (j - (i + 1)) (by omega)
          simpa only [show i + 1 + (j - (i + 1)) = j by omega, show i + 1 + (j - (i + 1) + 1) = j + 1 by omega] using this
        · obtain ⟨N, hN⟩ := ihk _ (fun j => M (i + j)) h1 (fun j => hM (i + j)) (fun a' b' h' => by
            have h5 := hab.2 a' b' h'
            push Not at hlong
            push_cast at hlong
            show sq ((M i).pos a') ((M i).pos b') ≤ _
            linarith) le_rfl
          refine ⟨i + N, fun j hj => ?_⟩
          have := hN (j - i) (by omega)
          simpa only [show i + (j - i) = j by omega, show i + (j - i + 1) = j + 1 by omega] using this

theorem exists_bound (M : Mesh (Fin w → K) d) : ∃ B : K, ∀ a b, IsEdge M a b → sq (M.pos a) (M.pos b) ≤ B := by
  obtain ⟨B, hB⟩ := (((longEdges_finite M (-1)).image fun e => sq (M.pos e.1) (M.pos e.2))).bddAbove
  refine ⟨B, fun a b hab => hB ⟨(a, b), ⟨hab, ?_⟩, rfl⟩⟩
  have := sq_nonneg' (M.pos a) (M.pos b)
  show -1 < sq (M.pos a) (M.pos b)
  linarith

/-- Halving of edges longer than `√t`, any number in each pass: there is a pass after which the longest edge of the mesh is never halved again. -/
theorem halvings_end [Archimedean K] {t : K} (ht : 0 < t) (M : ℕ → Mesh (Fin w → K) d) (hinj : ∀ c ∈ (M 0).cells, Function.Injective c)
    (hM : ∀ i, Halvings t (M i) (M (i + 1))) : ∃ N, ∀ i ≥ N, ∀ a b, IsLongestEdge (M i) a b → IsEdge (M (i + 1)) a b := by
  obtain ⟨B, hB⟩ := exists_bound (M 0)
  obtain ⟨k, hk⟩ := Archimedean.arch B (show 0 < t / 4 by linarith)
  refine ends_aux ht k _ M hinj hM (fun a b hab => ?_) le_rfl
  have := hB a b hab
  rw [nsmul_eq_mul] at hk
  linarith

/-! ## Model: marking and adaptation in 3D -/

/-- Length of an edge. (Models: `edge.geometry().volume()`, remeshing/ratioindicator.hh:125, remeshing/longestedgerefinement.hh:48.) -/
noncomputable def length (p q : Fin 3 → ℝ) : ℝ := Real.sqrt (sq p q)

/-- The grid: the mesh and the interface elements, given by their vertices. (Models: mmesh.hh:1811 `hostgrid_`, 1817 `interfaceSegments_`.) -/
structure Grid where
  mesh : Mesh (Fin 3 → ℝ) 3
  faces : List (Fin 3 → ℕ)

/-- The interface as a mesh. (Models: interface/grid.hh `leafGridView`.) -/
def Grid.interface (g : Grid) : Mesh (Fin 3 → ℝ) 2 := ⟨g.faces, g.mesh.pos⟩

/-- mmesh.hh:624-646 `isInterface` of an edge: it belongs to an interface element. -/
def Grid.isInterface (g : Grid) (a b : ℕ) : Bool := g.faces.any fun f => decide (({a, b} : Finset ℕ) ⊆ Finset.univ.image f)

/-- What the indicator is given in addition to the edges: the distance of the element to the interface, its volume, and the distance of its circumcenter to corner 0, and the latter two
for interface elements. (Models: remeshing/ratioindicator.hh:118, 142-145.) -/
structure Sizes where
  dist : (Fin 4 → ℕ) → ℝ
  vol : (Fin 4 → ℕ) → ℝ
  outer : (Fin 4 → ℕ) → ℝ
  ivol : (Fin 3 → ℕ) → ℝ
  iouter : (Fin 3 → ℕ) → ℝ

/-- mmesh.hh:741: the mark of an element. -/
noncomputable def mark (ind : Indicator.Ind) (z : Sizes) (g : Grid) (c : Fin 4 → ℕ) : Int :=
  Indicator.indicate 3 ind (z.dist c) (LongestEdge.tetrahedronEdges.map fun e => length (g.mesh.pos (c e.1)) (g.mesh.pos (c e.2))) (z.vol c) (z.outer c)

/-- mmesh.hh:746: the mark of an interface element, whose distance is zero (remeshing/distance.hh:104). -/
noncomputable def imark (ind : Indicator.Ind) (z : Sizes) (g : Grid) (f : Fin 3 → ℕ) : Int :=
  Indicator.indicate 3 ind 0 (LongestEdge.triangleEdges.map fun e => length (g.mesh.pos (f e.1)) (g.mesh.pos (f e.2))) (z.ivol f) (z.iouter f)

/-- mmesh.hh:736-751: the value returned by `markElements`. -/
def Marked (ind : Indicator.Ind) (z : Sizes) (g : Grid) : Prop := (∃ c ∈ g.mesh.cells, mark ind z g c ≠ 0) ∨ ∃ f ∈ g.faces, imark ind z g f ≠ 0

/-- mmesh.hh:826-852, 866-890: the requests of `adapt()` after `markElements()`, first those for elements, then those for interface elements. The set `inserted_` of edges is shared. -/
noncomputable def requests (ind : Indicator.Ind) (z : Sizes) (g : Grid) : List (Req (Fin 3 → ℝ)) :=
  let bulk := markedRequests length LongestEdge.tetrahedronEdges g.isInterface g.mesh (g.mesh.cells.filter fun c => mark ind z g c = 1) []
  bulk ++ markedRequests length LongestEdge.triangleEdges (fun _ _ => false) g.interface (g.faces.filter fun f => imark ind z g f = 1) (bulk.map Req.ends)

/-- The insertion loop (mmesh.hh:1227-1319) with the outcome of each request: it is carried out (`true`), or dropped because its edge is not found any more (1234-1243). The interface
elements at the edge are divided like the elements (`insertInInterface_`). -/
inductive Insert : Grid → List (Req (Fin 3 → ℝ) × Bool) → Grid → Prop
  | nil {g} : Insert g [] g
  | dropped {g g' r l} : Insert g l g' → Insert g ((r, false) :: l) g'
  | carried {g g' a b x m c l} : c ∈ g.mesh.cells → a ≠ b → (∃ i, c i = a) → (∃ i, c i = b) → Fresh g.mesh m →
      Insert ⟨insertAt g.mesh {a, b} m x, g.faces.flatMap (splitCell {a, b} m)⟩ l g' → Insert g ((⟨some (a, b), x⟩, true) :: l) g'

/-- `markElements()` and `adapt()`, with the outcomes of the requests. (Models: mmesh.hh:736-751, 823-1371.) -/
def Pass (ind : Indicator.Ind) (z : Sizes) (g : Grid) (l : List (Req (Fin 3 → ℝ) × Bool)) (g' : Grid) : Prop := l.map Prod.fst = requests ind z g ∧ Insert g l g'

/-! ## Specification -/

/-- Elements and interface elements have different vertices, and interface elements are facets of elements. -/
structure Grid.Ok (g : Grid) : Prop where
  cells : ∀ c ∈ g.mesh.cells, Function.Injective c
  faces : ∀ f ∈ g.faces, Function.Injective f
  facets : ∀ f ∈ g.faces, ∃ c ∈ g.mesh.cells, ∀ i, ∃ j, c j = f i

/-- The indicator has the same limit `H` everywhere. The proofs do not need that `maxDist` is positive, but otherwise the code divides by zero. -/
structure Uniform (H : ℝ) (ind : Indicator.Ind) : Prop where
  factor : ind.factor = 1
  maxH : ind.maxH = H
  maxDist : 0 < ind.maxDist

/-! ## Proofs -/

theorem length_nonneg (p q : Fin 3 → ℝ) : 0 ≤ length p q := Real.sqrt_nonneg _

theorem length_comm (p q : Fin 3 → ℝ) : length p q = length q p := by rw [length, length, sq_comm]

theorem lt_length {h : ℝ} (hh : 0 ≤ h) (p q : Fin 3 → ℝ) : h < length p q ↔ h ^ 2 < sq p q := by
  unfold length
  exact Real.lt_sqrt hh

theorem length_le (p q p' q' : Fin 3 → ℝ) : length p q ≤ length p' q' ↔ sq p q ≤ sq p' q' := by
  unfold length
  exact Real.sqrt_le_sqrt_iff (sq_nonneg' _ _)

theorem limits_one {ind : Indicator.Ind} (h : ind.factor = 1) (x : ℝ) : (Indicator.limits ind x).2 = ind.maxH := by
  unfold Indicator.limits
  simp only [h]
  ring

/-- The mark in 3D. -/
theorem indicate_three {ind : Indicator.Ind} (h : ind.factor = 1) (x vol outer : ℝ) (lens : List ℝ) :
    Indicator.indicate 3 ind x lens vol outer = if ∃ e ∈ lens, ind.maxH < e then 1 else 0 := by
  obtain ⟨-, h2, -⟩ := Indicator.fold_spec (Indicator.limits ind x) lens ⟨0, 0, 10 ^ 100, -(10 ^ 100), 0⟩
  unfold Indicator.indicate
  simp only [ne_eq, not_true_eq_false, and_false, if_false]
  simp only [gt_iff_lt, lt_self_iff_false, false_or, limits_one h] at h2
  simp only [gt_iff_lt, h2]

theorem mark_eq {ind : Indicator.Ind} (h : ind.factor = 1) (h0 : 0 ≤ ind.maxH) (z : Sizes) (g : Grid) (c : Fin 4 → ℕ) :
    mark ind z g c = if ∃ i j, i ≠ j ∧ ind.maxH ^ 2 < sq (g.mesh.pos (c i)) (g.mesh.pos (c j)) then 1 else 0 := by
  unfold mark
  rw [indicate_three h]
  refine if_congr ?_ rfl rfl
  simp only [List.mem_map, exists_exists_and_eq_and, lt_length h0]
  constructor
  · rintro ⟨e, he, h⟩
    exact ⟨e.1, e.2, LongestEdge.allEdges_tetrahedron.1 e he, h⟩
  · rintro ⟨i, j, hij, h⟩
    rcases LongestEdge.allEdges_tetrahedron.2 i j hij with he | he
    · exact ⟨_, he, h⟩
    · exact ⟨_, he, by rw [sq_comm]; exact h⟩

theorem imark_eq {ind : Indicator.Ind} (h : ind.factor = 1) (h0 : 0 ≤ ind.maxH) (z : Sizes) (g : Grid) (f : Fin 3 → ℕ) :
    imark ind z g f = if ∃ i j, i ≠ j ∧ ind.maxH ^ 2 < sq (g.mesh.pos (f i)) (g.mesh.pos (f j)) then 1 else 0 := by
  unfold imark
  rw [indicate_three h]
  refine if_congr ?_ rfl rfl
  simp only [List.mem_map, exists_exists_and_eq_and, lt_length h0]
  constructor
  · rintro ⟨e, he, h⟩
    exact ⟨e.1, e.2, LongestEdge.allEdges_triangle.1 e he, h⟩
  · rintro ⟨i, j, hij, h⟩
    rcases LongestEdge.allEdges_triangle.2 i j hij with he | he
    · exact ⟨_, he, h⟩
    · exact ⟨_, he, by rw [sq_comm]; exact h⟩

theorem marked_iff {ind : Indicator.Ind} (h : ind.factor = 1) (h0 : 0 ≤ ind.maxH) (z : Sizes) {g : Grid} (hg : g.Ok) :
    Marked ind z g ↔ ∃ a b, IsEdge g.mesh a b ∧ ind.maxH < length (g.mesh.pos a) (g.mesh.pos b) := by
  simp only [lt_length h0]
  constructor
  · rintro (⟨c, hc, hm⟩ | ⟨f, hf, hm⟩)
    · rw [mark_eq h h0] at hm
      split_ifs at hm with hs
      · obtain ⟨i, j, hij, hl⟩ := hs
        exact ⟨c i, c j, ⟨fun he => hij (hg.cells c hc he), c, hc, ⟨i, rfl⟩, ⟨j, rfl⟩⟩, hl⟩
      · exact absurd rfl hm
    · rw [imark_eq h h0] at hm
      split_ifs at hm with hs
      · obtain ⟨i, j, hij, hl⟩ := hs
        obtain ⟨c, hc, hcf⟩ := hg.facets f hf
        exact ⟨f i, f j, ⟨fun he => hij (hg.faces f hf he), c, hc, hcf i, hcf j⟩, hl⟩
      · exact absurd rfl hm
  · rintro ⟨a, b, ⟨hne, c, hc, ⟨i, rfl⟩, ⟨j, rfl⟩⟩, hl⟩
    refine Or.inl ⟨c, hc, ?_⟩
    rw [mark_eq h h0, if_pos ⟨i, j, fun he => hne (by rw [he]), hl⟩]
    decide

theorem nontrivial_fin (d : ℕ) : Nontrivial (Fin (d + 2)) := Fin.nontrivial_iff_two_le.2 (by omega)

theorem mem_insert_faces {F : Finset ℕ} {m : ℕ} {faces : List (Fin 3 → ℕ)} {f' : Fin 3 → ℕ} :
    f' ∈ faces.flatMap (splitCell F m) ↔ ∃ f ∈ faces, (¬ F ⊆ verts f ∧ f' = f) ∨ (F ⊆ verts f ∧ ∃ i, f i ∈ F ∧ f' = Function.update f i m) :=
  mem_insertAt (M := (⟨faces, fun _ => (0 : Fin 1 → ℝ)⟩ : Mesh (Fin 1 → ℝ) 2)) (x := 0)

theorem ok_insert {g : Grid} (hg : g.Ok) {a b m : ℕ} (x : Fin 3 → ℝ) (hm : Fresh g.mesh m) :
    (⟨insertAt g.mesh {a, b} m x, g.faces.flatMap (splitCell {a, b} m)⟩ : Grid).Ok where
  cells := injective_insertAt hg.cells hm
  faces := by
    intro f' hf'
    obtain ⟨f, hf, h | ⟨-, i, -, rfl⟩⟩ := mem_insert_faces.1 hf'
    · rw [h.2]
      exact hg.faces f hf
    · refine injective_update (hg.faces f hf) (fun j => ?_) i
      obtain ⟨c, hc, hcf⟩ := hg.facets f hf
      obtain ⟨k, hk⟩ := hcf j
      rw [← hk]
      exact hm c hc k
  facets := by
    intro f' hf'
    obtain ⟨f, hf, h | ⟨hF, i, hi, rfl⟩⟩ := mem_insert_faces.1 hf'
    · obtain ⟨h1, rfl⟩ := h
      obtain ⟨c, hc, hcf⟩ := hg.facets f' hf
      by_cases hs : ({a, b} : Finset ℕ) ⊆ verts c
      · -- one of the end points is not a vertex of the facet
        obtain ⟨v, hv, hv'⟩ := Finset.not_subset.1 h1
        obtain ⟨k, rfl⟩ := mem_verts.1 (hs hv)
        refine ⟨Function.update c k m, mem_insertAt.2 ⟨c, hc, Or.inr ⟨hs, k, hv, rfl⟩⟩, fun j => ?_⟩
        obtain ⟨j', hj'⟩ := hcf j
        refine ⟨j', ?_⟩
        rw [Function.update_of_ne, hj']
        rintro rfl
        exact hv' (mem_verts.2 ⟨j, hj'.symm⟩)
      · exact ⟨c, mem_insertAt.2 ⟨c, hc, Or.inl ⟨hs, rfl⟩⟩, hcf⟩
    · obtain ⟨c, hc, hcf⟩ := hg.facets f hf
      have hs : ({a, b} : Finset ℕ) ⊆ verts c := by
        intro v hv
        obtain ⟨j, rfl⟩ := mem_verts.1 (hF hv)
        exact mem_verts.2 (hcf j)
      obtain ⟨k, hk⟩ := hcf i
      refine ⟨Function.update c k m, mem_insertAt.2 ⟨c, hc, Or.inr ⟨hs, k, by rw [hk]; exact hi, rfl⟩⟩, fun j => ?_⟩
      by_cases hj : j = i
      · exact ⟨k, by rw [hj]; simp⟩
      · obtain ⟨j', hj'⟩ := hcf j
        refine ⟨j', ?_⟩
        rw [Function.update_of_ne hj, Function.update_of_ne, hj']
        rintro rfl
        exact hj (hg.faces f hf (by rw [← hj', hk]))

/-- The requests are made for edges of the grid that are longer than `maxH`. -/
theorem requests_spec {ind : Indicator.Ind} (h : ind.factor = 1) (h0 : 0 ≤ ind.maxH) {z : Sizes} {g : Grid} (hg : g.Ok) {r : Req (Fin 3 → ℝ)} (hr : r ∈ requests ind z g) :
    ∃ a b, r = refineMarked ℝ g.mesh a b ∧ IsEdge g.mesh a b ∧ ind.maxH ^ 2 < sq (g.mesh.pos a) (g.mesh.pos b) := by
  unfold requests at hr
  rcases List.mem_append.1 hr with hr | hr
  · obtain ⟨c, hc, e, he, -, rfl⟩ := mem_markedRequests hr
    have := nontrivial_fin 2
    obtain ⟨i, j, h1, h2, h3⟩ := LongestEdge.refinementEdge_longest length length_comm length_nonneg (fun i => g.mesh.pos (c i)) LongestEdge.allEdges_tetrahedron
    rw [he] at h1
    obtain rfl : e = (i, j) := by simpa using h1
    simp only [List.mem_filter, decide_eq_true_eq] at hc
    refine ⟨c i, c j, rfl, ⟨fun hij => h3.1 (hg.cells c hc.1 hij), c, hc.1, ⟨i, rfl⟩, ⟨j, rfl⟩⟩, ?_⟩
    have hm := hc.2
    rw [mark_eq h h0] at hm
    split_ifs at hm with hs
    · obtain ⟨k, l, hkl, hlt⟩ := hs
      exact hlt.trans_le ((length_le _ _ _ _).1 (h3.2 k l hkl))
    · simp at hm
  · obtain ⟨f, hf, e, he, -, rfl⟩ := mem_markedRequests hr
    have := nontrivial_fin 1
    obtain ⟨i, j, h1, h2, h3⟩ := LongestEdge.refinementEdge_longest length length_comm length_nonneg (fun i => g.mesh.pos (f i)) LongestEdge.allEdges_triangle
    rw [show (fun i j => length (g.interface.pos (f i)) (g.interface.pos (f j))) = fun i j => length (g.mesh.pos (f i)) (g.mesh.pos (f j)) from rfl, h1] at he
    obtain rfl : (i, j) = e := by simpa using he
    simp only [List.mem_filter, decide_eq_true_eq] at hf
    obtain ⟨c, hc, hcf⟩ := hg.facets f hf.1
    refine ⟨f i, f j, rfl, ⟨fun hij => h3.1 (hg.faces f hf.1 hij), c, hc, hcf i, hcf j⟩, ?_⟩
    have hm := hf.2
    rw [imark_eq h h0] at hm
    split_ifs at hm with hs
    · obtain ⟨k, l, hkl, hlt⟩ := hs
      exact hlt.trans_le ((length_le _ _ _ _).1 (h3.2 k l hkl))
    · simp at hm

/-- If an edge is longer than `maxH`, there is a request for one of the longest edges of the grid. -/
theorem longest_requested {ind : Indicator.Ind} (h : ind.factor = 1) (h0 : 0 ≤ ind.maxH) (z : Sizes) {g : Grid} (hg : g.Ok) (hm : Marked ind z g) :
    ∃ r ∈ requests ind z g, ∃ a b, r.edge = some (a, b) ∧ IsLongestEdge g.mesh a b := by
  obtain ⟨a0, b0, hab0, hl0⟩ := (marked_iff h h0 z hg).1 hm
  -- a longest edge
  obtain ⟨⟨a, b⟩, ⟨hab, -⟩, hmax⟩ := Set.exists_max_image (longEdges g.mesh (-1)) (fun e => sq (g.mesh.pos e.1) (g.mesh.pos e.2)) (longEdges_finite _ _)
    ⟨(a0, b0), hab0, lt_of_lt_of_le (by norm_num) (sq_nonneg' _ _)⟩
  have hmax' : ∀ a' b', IsEdge g.mesh a' b' → sq (g.mesh.pos a') (g.mesh.pos b') ≤ sq (g.mesh.pos a) (g.mesh.pos b) :=
    fun a' b' h' => hmax (a', b') ⟨h', lt_of_lt_of_le (by norm_num) (sq_nonneg' _ _)⟩
  have hlong : ind.maxH ^ 2 < sq (g.mesh.pos a) (g.mesh.pos b) := ((lt_length h0 _ _).1 hl0).trans_le (hmax' _ _ hab0)
  have upgrade : ∀ u v, IsEdge g.mesh u v → sq (g.mesh.pos a) (g.mesh.pos b) ≤ sq (g.mesh.pos u) (g.mesh.pos v) → IsLongestEdge g.mesh u v :=
    fun u v huv hle => ⟨huv, fun a' b' h' => (hmax' a' b' h').trans hle⟩
  have transfer : ∀ u v u' v', ({u', v'} : Finset ℕ) = {u, v} → IsLongestEdge g.mesh u v → IsLongestEdge g.mesh u' v' := by
    intro u v u' v' he hl
    have hne := hl.1.1
    have h1 : u' = u ∨ u' = v := by
      have : u' ∈ ({u, v} : Finset ℕ) := by rw [← he]; simp
      simpa using this
    have h2 : v' = u ∨ v' = v := by
      have : v' ∈ ({u, v} : Finset ℕ) := by rw [← he]; simp
      simpa using this
    have h3 : u = u' ∨ u = v' := by
      have : u ∈ ({u', v'} : Finset ℕ) := by rw [he]; simp
      simpa using this
    have h4 : v = u' ∨ v = v' := by
      have : v ∈ ({u', v'} : Finset ℕ) := by rw [he]; simp
      simpa using this
    rcases h1 with rfl | rfl
    · rcases h2 with rfl | rfl
      · rcases h4 with rfl | rfl <;> exact absurd rfl hne
      · exact hl
    · rcases h2 with rfl | rfl
      · exact ⟨hl.1.symm, fun a' b' h' => by rw [sq_comm (g.mesh.pos u')]; exact hl.2 a' b' h'⟩
      · rcases h3 with rfl | rfl <;> exact absurd rfl hne
  obtain ⟨hne, c, hc, ⟨p, rfl⟩, ⟨q, rfl⟩⟩ := hab
  have := nontrivial_fin 2
  obtain ⟨i, j, h1, h2, h3⟩ := LongestEdge.refinementEdge_longest length length_comm length_nonneg (fun i => g.mesh.pos (c i)) LongestEdge.allEdges_tetrahedron
  have hpq : p ≠ q := fun he => hne (by rw [he])
  have hij : IsEdge g.mesh (c i) (c j) := ⟨fun he => h3.1 (hg.cells c hc he), c, hc, ⟨i, rfl⟩, ⟨j, rfl⟩⟩
  have hLij : IsLongestEdge g.mesh (c i) (c j) := upgrade _ _ hij ((length_le _ _ _ _).1 (h3.2 p q hpq))
  have hmark : mark ind z g c = 1 := by rw [mark_eq h h0, if_pos ⟨p, q, hpq, hlong⟩]
  have hcm : c ∈ g.mesh.cells.filter fun c => mark ind z g c = 1 := by simp [hc, hmark]
  by_cases hint : g.isInterface (c i) (c j) = true
  · -- an interface element at this edge
    obtain ⟨f, hf, hfe⟩ : ∃ f ∈ g.faces, ({c i, c j} : Finset ℕ) ⊆ Finset.univ.image f := by
      unfold Grid.isInterface at hint
      rw [List.any_eq_true] at hint
      obtain ⟨f, hf, hd⟩ := hint
      exact ⟨f, hf, by simpa only [decide_eq_true_eq] using hd⟩
    obtain ⟨s, hs⟩ : ∃ s, f s = c i := mem_verts.1 (hfe (by simp))
    obtain ⟨t, ht⟩ : ∃ t, f t = c j := mem_verts.1 (hfe (by simp))
    have hst : s ≠ t := fun he => hij.1 (by rw [← hs, ← ht, he])
    have := nontrivial_fin 1
    obtain ⟨k, l, g1, g2, g3⟩ := LongestEdge.refinementEdge_longest length length_comm length_nonneg (fun i => g.mesh.pos (f i)) LongestEdge.allEdges_triangle
    obtain ⟨c', hc', hcf⟩ := hg.facets f hf
    have hkl : IsEdge g.mesh (f k) (f l) := ⟨fun he => g3.1 (hg.faces f hf he), c', hc', hcf k, hcf l⟩
    have hLkl : IsLongestEdge g.mesh (f k) (f l) := by
      refine upgrade _ _ hkl ((hLij.2 (c p) (c q) ⟨hne, c, hc, ⟨p, rfl⟩, ⟨q, rfl⟩⟩).trans ?_)
      have := (length_le _ _ _ _).1 (g3.2 s t hst)
      simpa only [hs, ht] using this
    have hfm : f ∈ g.faces.filter fun f => imark ind z g f = 1 := by
      have : imark ind z g f = 1 := by
        have hlt : ind.maxH ^ 2 < sq (g.mesh.pos (f s)) (g.mesh.pos (f t)) := by
          rw [hs, ht]
          exact hlong.trans_le (hLij.2 _ _ ⟨hne, c, hc, ⟨p, rfl⟩, ⟨q, rfl⟩⟩)
        rw [imark_eq h h0, if_pos ⟨s, t, hst, hlt⟩]
      simp [hf, this]
    rcases requested (K := ℝ) (len := length) (edges := LongestEdge.triangleEdges) (isInterface := fun _ _ => false) (M := g.interface) (c := f) (e := (k, l)) g1 rfl
      (ins := (markedRequests length LongestEdge.tetrahedronEdges g.isInterface g.mesh (g.mesh.cells.filter fun c => mark ind z g c = 1) []).map Req.ends) hfm with
      hin | ⟨r, hr, u, v, huv, he⟩
    · obtain ⟨r, hr, hre⟩ := List.mem_map.1 hin
      obtain ⟨_, _, e, -, -, rfl⟩ := mem_markedRequests hr
      exact ⟨_, List.mem_append.2 (Or.inl hr), _, _, rfl, transfer _ _ _ _ hre hLkl⟩
    · exact ⟨r, List.mem_append.2 (Or.inr hr), u, v, huv, transfer _ _ _ _ he hLkl⟩
  · rcases requested (K := ℝ) (len := length) (edges := LongestEdge.tetrahedronEdges) (isInterface := g.isInterface) (M := g.mesh) (c := c) (e := (i, j)) h1
      (by simpa using hint) (ins := []) hcm with hin | ⟨r, hr, u, v, huv, he⟩
    · simp at hin
    · exact ⟨r, List.mem_append.2 (Or.inl hr), u, v, huv, transfer _ _ _ _ he hLij⟩

/-- What the insertion loop does, for requests at the centers of edges of the grid at the beginning. -/
theorem insert_spec {t : ℝ} {g0 : Grid} {g g' : Grid} {l : List (Req (Fin 3 → ℝ) × Bool)} (h : Insert g l g') :
    g.Ok → (∀ v ∈ vertices g0.mesh, v ∈ vertices g.mesh ∧ g.mesh.pos v = g0.mesh.pos v) →
    (∀ p ∈ l, ∃ a b, p.1 = refineMarked ℝ g0.mesh a b ∧ IsEdge g0.mesh a b ∧ t < sq (g0.mesh.pos a) (g0.mesh.pos b)) →
    g'.Ok ∧ Halvings t g.mesh g'.mesh ∧ (∀ v ∈ vertices g.mesh, v ∈ vertices g'.mesh) ∧
      (∀ u v, u ∈ vertices g.mesh → v ∈ vertices g.mesh → IsEdge g'.mesh u v → IsEdge g.mesh u v) ∧
      ∀ p ∈ l, p.2 = true → ∀ a b, p.1.edge = some (a, b) → ¬ IsEdge g'.mesh a b := by
  induction h with
  | nil => exact fun hg _ _ => ⟨hg, Relation.ReflTransGen.refl, fun _ h => h, fun _ _ _ _ h => h, by simp⟩
  | dropped _ ih =>
    intro hg hv hl
    obtain ⟨h1, h2, h3, h4, h5⟩ := ih hg hv fun p hp => hl p (by simp [hp])
    refine ⟨h1, h2, h3, h4, fun p hp ht => ?_⟩
    rcases List.mem_cons.1 hp with rfl | hp
    · simp at ht
    · exact h5 p hp ht
  | @carried g g' a b x m c l hc hab ha hb hm _ ih =>
    intro hg hv hl
    obtain ⟨a', b', he, hedge, hlong⟩ := hl _ List.mem_cons_self
    simp only [refineMarked, Req.mk.injEq, Option.some.injEq, Prod.mk.injEq] at he
    obtain ⟨⟨rfl, rfl⟩, rfl⟩ := he
    have hva : a ∈ vertices g0.mesh := by
      obtain ⟨-, c0, hc0, h1, -⟩ := hedge
      exact ⟨c0, hc0, h1⟩
    have hvb : b ∈ vertices g0.mesh := by
      obtain ⟨-, c0, hc0, -, h1⟩ := hedge
      exact ⟨c0, hc0, h1⟩
    have hE : IsEdge g.mesh a b := ⟨hab, c, hc, ha, hb⟩
    have hcard : 2 ≤ ({a, b} : Finset ℕ).card := by rw [Finset.card_pair hab]
    have hkeep : ∀ v ∈ vertices g.mesh, v ∈ vertices (insertAt g.mesh {a, b} m ((1 / 2 : ℝ) • (g0.mesh.pos a + g0.mesh.pos b))) :=
      fun v hv => vertices_insertAt hg.cells hcard hv
    have hfresh : ∀ v ∈ vertices g.mesh, v ≠ m := by
      rintro v ⟨c', hc', i, rfl⟩
      exact hm c' hc' i
    obtain ⟨h1, h2, h3, h4, h5⟩ := ih (ok_insert hg _ hm) (fun v hv' => by
      obtain ⟨k1, k2⟩ := hv v hv'
      refine ⟨hkeep v k1, ?_⟩
      rw [← k2]
      exact Function.update_of_ne (hfresh v k1) _ _) (fun p hp => hl p (by simp [hp]))
    have hstep : Halving t g.mesh (insertAt g.mesh {a, b} m ((1 / 2 : ℝ) • (g0.mesh.pos a + g0.mesh.pos b))) := by
      refine ⟨a, b, m, hE, ?_, hm, ?_⟩
      · rw [(hv a hva).2, (hv b hvb).2]
        exact hlong
      · rw [(hv a hva).2, (hv b hvb).2]
    have hback : ∀ u v, u ∈ vertices g.mesh → v ∈ vertices g.mesh → IsEdge (insertAt g.mesh {a, b} m ((1 / 2 : ℝ) • (g0.mesh.pos a + g0.mesh.pos b))) u v →
        IsEdge g.mesh u v ∧ ({u, v} : Finset ℕ) ≠ {a, b} := by
      intro u v hu hv' huv
      rcases edges_insertAt hg.cells hm huv with ⟨k1, k2, -, -⟩ | ⟨y, ⟨rfl, rfl⟩ | ⟨rfl, rfl⟩, -⟩
      · exact ⟨k1, k2⟩
      · exact absurd rfl (hfresh _ hu)
      · exact absurd rfl (hfresh _ hv')
    refine ⟨h1, Relation.ReflTransGen.head hstep h2, fun v hv => h3 v (hkeep v hv), fun u v hu hv' huv => ?_, fun p hp ht u v huv hcon => ?_⟩
    · exact (hback u v hu hv' (h4 u v (hkeep u hu) (hkeep v hv') huv)).1
    · rcases List.mem_cons.1 hp with rfl | hp
      · simp only [Option.some.injEq, Prod.mk.injEq] at huv
        obtain ⟨rfl, rfl⟩ := huv
        have hva' := (hv a hva).1
        have hvb' := (hv b hvb).1
        exact (hback a b hva' hvb' (h4 a b (hkeep a hva') (hkeep b hvb') hcon)).2 rfl
      · exact h5 p hp ht u v huv hcon

theorem pass_spec {ind : Indicator.Ind} (h : ind.factor = 1) (h0 : 0 ≤ ind.maxH) {z : Sizes} {g g' : Grid} (hg : g.Ok) {l : List (Req (Fin 3 → ℝ) × Bool)}
    (hp : Pass ind z g l g') : g'.Ok ∧ Halvings (ind.maxH ^ 2) g.mesh g'.mesh ∧ (∀ v ∈ vertices g.mesh, v ∈ vertices g'.mesh) ∧
      ∀ p ∈ l, p.2 = true → ∀ a b, p.1.edge = some (a, b) → ¬ IsEdge g'.mesh a b := by
  obtain ⟨h1, h2, h3, -, h5⟩ := insert_spec (g0 := g) (t := ind.maxH ^ 2) hp.2 hg (fun v hv => ⟨hv, rfl⟩) fun p hp' =>
    requests_spec (z := z) h h0 hg (by rw [← hp.1]; exact List.mem_map_of_mem hp')
  exact ⟨h1, h2, h3, h5⟩

/-- **C221** `markElements()` returns true exactly if an edge of the grid is longer than `maxH`. -/
theorem C221_marked {H : ℝ} (hH : 0 < H) {ind : Indicator.Ind} (hi : Uniform H ind) (z : Sizes) {g : Grid} (hg : g.Ok) :
    Marked ind z g ↔ ∃ a b, IsEdge g.mesh a b ∧ H < length (g.mesh.pos a) (g.mesh.pos b) := by
  rw [marked_iff hi.factor (by rw [hi.maxH]; exact hH.le) z hg, hi.maxH]

/-- **C221** If `markElements()` and `adapt()` are repeated as long as `markElements()` returns true, and this does not end, then from some pass on, the request for a longest edge of the grid
is dropped in every pass. The distances to the interface may be anything, and also the other parameters of the indicator may change, but `factor` is 1 and `maxH` is constant. -/
theorem C221_drops {H : ℝ} (hH : 0 < H) (ind : ℕ → Indicator.Ind) (hi : ∀ i, Uniform H (ind i)) (z : ℕ → Sizes) (g : ℕ → Grid) (hg : (g 0).Ok)
    (l : ℕ → List (Req (Fin 3 → ℝ) × Bool)) (hp : ∀ i, Marked (ind i) (z i) (g i) ∧ Pass (ind i) (z i) (g i) (l i) (g (i + 1))) :
    ∃ N, ∀ i ≥ N, ∃ r a b, (r, false) ∈ l i ∧ r.edge = some (a, b) ∧ IsLongestEdge (g i).mesh a b := by
  have h0 : ∀ i, 0 ≤ (ind i).maxH := fun i => by rw [(hi i).maxH]; exact hH.le
  have ok : ∀ i, (g i).Ok := by
    intro i
    induction i with
    | zero => exact hg
    | succ i ih => exact (pass_spec (hi i).factor (h0 i) ih (hp i).2).1
  have key := fun i => pass_spec (hi i).factor (h0 i) (ok i) (hp i).2
  obtain ⟨N, hN⟩ := halvings_end (t := H ^ 2) (by positivity) (fun i => (g i).mesh) hg.cells fun i => by
    have := (key i).2.1
    rwa [(hi i).maxH] at this
  refine ⟨N, fun i hiN => ?_⟩
  obtain ⟨r, hr, a, b, hab, hL⟩ := longest_requested (hi i).factor (h0 i) (z i) (ok i) (hp i).1
  rw [← (hp i).2.1] at hr
  obtain ⟨⟨r', o⟩, hro, rfl⟩ := List.mem_map.1 hr
  cases o with
  | false => exact ⟨r', a, b, hro, hab, hL⟩
  | true => exact absurd (hN i hiN a b hL) ((key i).2.2.2 _ hro rfl a b hab)

/-- **C221** If no request is dropped, the repetition ends. -/
theorem C221_ends {H : ℝ} (hH : 0 < H) (ind : ℕ → Indicator.Ind) (hi : ∀ i, Uniform H (ind i)) (z : ℕ → Sizes) (g : ℕ → Grid) (hg : (g 0).Ok)
    (l : ℕ → List (Req (Fin 3 → ℝ) × Bool)) (hp : ∀ i, Pass (ind i) (z i) (g i) (l i) (g (i + 1))) (hl : ∀ i, ∀ p ∈ l i, p.2 = true) :
    ∃ n, ¬ Marked (ind n) (z n) (g n) := by
  by_contra hcon
  push Not at hcon
  obtain ⟨N, hN⟩ := C221_drops hH ind hi z g hg l fun i => ⟨hcon i, hp i⟩
  obtain ⟨r, _, _, hr, -⟩ := hN N le_rfl
  exact absurd (hl N _ hr) (by simp)

/-- All requests of a pass can be carried out. -/
theorem exists_pass {ind : Indicator.Ind} (h : ind.factor = 1) (h0 : 0 ≤ ind.maxH) (z : Sizes) {g : Grid} (hg : g.Ok) :
    ∃ l g', Pass ind z g l g' ∧ ∀ p ∈ l, p.2 = true := by
  have nodup : ((requests ind z g).map Req.ends).Nodup := by
    unfold requests
    simp only [List.map_append]
    refine List.Nodup.append distinct.1 distinct.1 fun e he he' => ?_
    obtain ⟨r, hr, rfl⟩ := List.mem_map.1 he'
    exact distinct.2 r hr he
  obtain ⟨M', hM'⟩ := exists_carried (rs := requests ind z g) (M := g.mesh) nodup fun r hr => by
    obtain ⟨a, b, rfl, ⟨hne, c, hc, ha, hb⟩, -⟩ := requests_spec h h0 hg hr
    refine ⟨a, b, rfl, hne, c, hc, fun v hv => ?_⟩
    simp only [Finset.mem_insert, Finset.mem_singleton] at hv
    rcases hv with rfl | rfl
    · exact mem_verts.2 ha
    · exact mem_verts.2 hb
  have carry : ∀ (rs : List (Req (Fin 3 → ℝ))) (M M' : Mesh (Fin 3 → ℝ) 3) (faces : List (Fin 3 → ℕ)), Carried M rs M' →
      ∃ g', Insert ⟨M, faces⟩ (rs.map fun r => (r, true)) g' := by
    intro rs M M' faces hc
    induction hc generalizing faces with
    | nil => exact ⟨_, Insert.nil⟩
    | @cons M M' a b x m c rs h1 h2 h3 h4 h5 _ ih =>
      obtain ⟨g', hg'⟩ := ih (faces.flatMap (splitCell {a, b} m))
      exact ⟨g', Insert.carried h1 h2 h3 h4 h5 hg'⟩
  obtain ⟨g', hg'⟩ := carry _ _ _ g.faces hM'
  refine ⟨_, g', ⟨by simp [Function.comp_def], hg'⟩, ?_⟩
  simp

/-- **C221** From every grid, the repetition in which no request is dropped leads to a grid in which no edge is longer than `maxH`. -/
theorem C221_reaches {H : ℝ} (hH : 0 < H) {ind : Indicator.Ind} (hi : Uniform H ind) (z : Sizes) (g : Grid) (hg : g.Ok) :
    ∃ g', Relation.ReflTransGen (fun g1 g2 => ∃ l, Pass ind z g1 l g2 ∧ ∀ p ∈ l, p.2 = true) g g' ∧ ¬ Marked ind z g' ∧
      ∀ a b, IsEdge g'.mesh a b → length (g'.mesh.pos a) (g'.mesh.pos b) ≤ H := by
  classical
  have h := hi.factor
  have h0 : 0 < ind.maxH := by rw [hi.maxH]; exact hH
  let next : {g : Grid // g.Ok} → {g : Grid // g.Ok} := fun s =>
    ⟨(exists_pass h h0.le z s.2).choose_spec.choose, (pass_spec h h0.le s.2 (exists_pass h h0.le z s.2).choose_spec.choose_spec.1).1⟩
  have hnext : ∀ s : {g : Grid // g.Ok}, ∃ l, Pass ind z s.1 l (next s).1 ∧ ∀ p ∈ l, p.2 = true := fun s =>
    ⟨_, (exists_pass h h0.le z s.2).choose_spec.choose_spec⟩
  let seq : ℕ → {g : Grid // g.Ok} := fun i => next^[i] ⟨g, hg⟩
  have hseq : ∀ i, seq (i + 1) = next (seq i) := fun i => Function.iterate_succ_apply' next i _
  have hl : ∀ i, ∃ l, Pass ind z (seq i).1 l (seq (i + 1)).1 ∧ ∀ p ∈ l, p.2 = true := fun i => by rw [hseq]; exact hnext _
  choose l hl1 hl2 using hl
  obtain ⟨n, hn⟩ := C221_ends hH (fun _ => ind) (fun _ => hi) (fun _ => z) (fun i => (seq i).1) hg l hl1 hl2
  refine ⟨(seq n).1, ?_, hn, fun a b hab => ?_⟩
  · have : ∀ i, Relation.ReflTransGen (fun g1 g2 => ∃ l, Pass ind z g1 l g2 ∧ ∀ p ∈ l, p.2 = true) g (seq i).1 := by
      intro i
      induction i with
      | zero => exact Relation.ReflTransGen.refl
      | succ i ih => exact ih.tail ⟨l i, hl1 i, hl2 i⟩
    exact this n
  · by_contra hlt
    push Not at hlt
    exact hn ((C221_marked hH hi z (seq n).2).2 ⟨a, b, hab, hlt⟩)

/-! ## Examples -/

/-- A tetrahedron with an interface facet. -/
def tetra : Grid := ⟨⟨[![0, 1, 2, 3]], fun v => if v = 1 then ![1, 0, 0] else if v = 2 then ![0, 1, 0] else if v = 3 then ![0, 0, 1] else ![0, 0, 0]⟩, [![0, 1, 2]]⟩

theorem tetra_ok : tetra.Ok where
  cells := by decide
  faces := by decide
  facets := by decide

/-- The edge from `(1, 0, 0)` to `(0, 1, 0)` has the length `√2`: with `maxH = 1` it has to be refined. -/
example : Uniform 1 ⟨0, 1, 1, 1, 1⟩ ∧ ∀ z, Marked ⟨0, 1, 1, 1, 1⟩ z tetra := by
  have hi : Uniform 1 ⟨0, 1, 1, 1, 1⟩ := ⟨rfl, rfl, one_pos⟩
  refine ⟨hi, fun z => (C221_marked one_pos hi z tetra_ok).2 ⟨1, 2, ?_, ?_⟩⟩
  · unfold IsEdge tetra
    decide
  · rw [lt_length zero_le_one]
    simp [sq, tetra, Fin.sum_univ_three]

end Verif.Refine
