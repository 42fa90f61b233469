import Verif.BoundaryFlag.Model
import Verif.Incident.Props
import Verif.InterfaceIter.Props
import Mathlib.Algebra.BigOperators.Field
import Mathlib.Tactic.Ring
import Mathlib.Tactic.Linarith
import Mathlib.Tactic.FieldSimp
import Mathlib.Tactic.Positivity

/-!
# C156, C157: the boundary flag of a vertex
-/

namespace Verif.BoundaryFlag

open Verif Tri Factory Incident

variable {d : Nat}

/-! ## Specification -/

/-- The vertex is on the boundary of the domain: a cell contains it and the infinite vertex. -/
def OnBoundary (T : Tri d) (v : Nat) : Prop := ∃ c ∈ T.cells, (∃ i, c i = some v) ∧ ∃ j, c j = none

/-- `w` is joined with `v` by an edge of the mesh, and both are on the boundary. -/
def BoundaryNeighbour (T : Tri d) (v w : Nat) : Prop := Joined T (some v) (some w) ∧ OnBoundary T w

/-- Scalar product. -/
def dot (x y : Fin d → ℝ) : ℝ := ∑ i, x i * y i

/-- Length. -/
noncomputable def len (x : Fin d → ℝ) : ℝ := Real.sqrt (dot x x)

/-- CGAL's circulators. -/
def Circulates (T : Tri d) (circ : Nat → List (Option Nat)) : Prop := ∀ v, RunsVertices T (some v) (circ v)

/-- A triangulation of a sphere with the infinite vertex: every cell has neighbours on all sides, and behind the facet of an infinite cell that does not contain the infinite vertex
is a finite cell. CGAL's triangulations of dimension `d` are like this. -/
structure Closed (T : Tri d) : Prop where
  total : ∀ h i c, T.cells[h]? = some c → ∃ h', T.nbr h i = some h'
  hull : ∀ h i c h' c', T.cells[h]? = some c → c i = none → T.nbr h i = some h' → T.cells[h']? = some c' → ∀ j, c' j ≠ none

/-! ## Lemmas -/

theorem atBoundary_iff {T : Tri d} {circ : Nat → List (Option Nat)} (h : Circulates T circ) (v : Nat) : atBoundary circ v = true ↔ OnBoundary T v := by
  unfold atBoundary
  rw [List.any_eq_true]
  constructor
  · rintro ⟨w, hw, hn⟩
    rw [Option.isNone_iff_eq_none] at hn
    subst hn
    exact (((h v).2 none).1 hw).2
  · intro hb
    exact ⟨none, ((h v).2 none).2 ⟨by simp, hb⟩, rfl⟩

theorem mem_incident {T : Tri d} {circ : Nat → List (Option Nat)} (h : Circulates T circ) (v w : Nat) :
    w ∈ incidentAtBoundary circ v ↔ BoundaryNeighbour T v w := by
  unfold incidentAtBoundary BoundaryNeighbour
  rw [List.mem_filter, atBoundary_iff h, List.mem_filterMap]
  simp only [id, exists_eq_right, (h v).2]

theorem incident_nodup {T : Tri d} {circ : Nat → List (Option Nat)} (h : Circulates T circ) (v : Nat) : (incidentAtBoundary circ v).Nodup := by
  unfold incidentAtBoundary
  apply List.Nodup.filter
  apply (h v).1.filterMap
  intro a b c h1 h2
  simp only [id] at h1 h2
  rw [h1, h2]

theorem norm_sq (x : Fin d → ℝ) : norm x ^ 2 = ∑ i, x i ^ 2 := Real.sq_sqrt (Finset.sum_nonneg fun i _ => sq_nonneg _)

theorem norm_eq_len (x : Fin d → ℝ) : norm x = len x := by
  unfold norm len dot
  congr 1
  exact Finset.sum_congr rfl fun i _ => by ring

theorem len_pos {x : Fin d → ℝ} (h : x ≠ 0) : 0 < len x := by
  unfold len dot
  apply Real.sqrt_pos.2
  obtain ⟨i, hi⟩ := Function.ne_iff.1 h
  refine Finset.sum_pos' (fun j _ => mul_self_nonneg _) ⟨i, Finset.mem_univ i, ?_⟩
  exact mul_self_pos.2 hi

/-- Sum and difference of two unit vectors by their scalar product. -/
theorem norm_pm {x y : Fin d → ℝ} (hx : x ≠ 0) (hy : y ≠ 0) (s : ℝ) (hs : s ^ 2 = 1) :
    norm (fun i => x i / norm x + s * (y i / norm y)) ^ 2 = 2 + 2 * s * (dot x y / (len x * len y)) := by
  have px := len_pos hx
  have py := len_pos hy
  have qx : len x ^ 2 = ∑ i, x i ^ 2 := by rw [← norm_eq_len, norm_sq]
  have qy : len y ^ 2 = ∑ i, y i ^ 2 := by rw [← norm_eq_len, norm_sq]
  rw [norm_sq, norm_eq_len, norm_eq_len]
  have : ∀ i, (x i / len x + s * (y i / len y)) ^ 2 = x i ^ 2 / len x ^ 2 + 2 * s * (x i * y i / (len x * len y)) + s ^ 2 * (y i ^ 2 / len y ^ 2) := by
    intro i
    field_simp
    ring
  rw [Finset.sum_congr rfl fun i _ => this i, Finset.sum_add_distrib, Finset.sum_add_distrib, ← Finset.sum_div, ← Finset.mul_sum, ← Finset.sum_div, ← Finset.mul_sum,
    ← Finset.sum_div, ← qx, ← qy, hs, div_self (by positivity), div_self (by positivity)]
  unfold dot
  ring

theorem norm_gt_iff {x : Fin d → ℝ} {ε : ℝ} (he : 0 ≤ ε) : norm x > ε ↔ norm x ^ 2 > ε ^ 2 := by
  have : 0 ≤ norm x := Real.sqrt_nonneg _
  constructor
  · intro h
    exact pow_lt_pow_left₀ h he (by norm_num)
  · intro h
    exact lt_of_pow_lt_pow_left₀ 2 this h

/-- The two tests say that the cosine of the angle is not too near to one in absolute value. -/
theorem tests_iff (pos : Nat → Fin d → ℝ) {v a b : Nat} (ha : pos v ≠ pos a) (hb : pos v ≠ pos b) :
    (norm (fun i => direction pos v a i + direction pos v b i) > 1 / 10 ^ 8 ∧ norm (fun i => direction pos v a i - direction pos v b i) > 1 / 10 ^ 8) ↔
      |dot (pos v - pos a) (pos v - pos b)| < (1 - 5 / 10 ^ 17) * (len (pos v - pos a) * len (pos v - pos b)) := by
  have hx : pos v - pos a ≠ 0 := sub_ne_zero.2 ha
  have hy : pos v - pos b ≠ 0 := sub_ne_zero.2 hb
  have e1 := norm_pm hx hy 1 (by norm_num)
  have e2 := norm_pm hx hy (-1) (by norm_num)
  have f1 : (fun i => direction pos v a i + direction pos v b i) =
      fun i => (pos v - pos a) i / norm (pos v - pos a) + 1 * ((pos v - pos b) i / norm (pos v - pos b)) := by
    funext i
    unfold direction
    rw [one_mul]
    rfl
  have f2 : (fun i => direction pos v a i - direction pos v b i) =
      fun i => (pos v - pos a) i / norm (pos v - pos a) + (-1) * ((pos v - pos b) i / norm (pos v - pos b)) := by
    funext i
    unfold direction
    rw [neg_one_mul, ← sub_eq_add_neg]
    rfl
  rw [norm_gt_iff (by norm_num), norm_gt_iff (by norm_num), f1, f2, e1, e2]
  have p := mul_pos (len_pos hx) (len_pos hy)
  generalize len (pos v - pos a) * len (pos v - pos b) = L at p ⊢
  generalize dot (pos v - pos a) (pos v - pos b) = D
  rw [abs_lt]
  have h1 : (2 + 2 * 1 * (D / L) > (1 / 10 ^ 8) ^ 2) ↔ -((1 - 5 / 10 ^ 17) * L) < D := by
    rw [← neg_mul, ← lt_div_iff₀ p]
    constructor <;> intro h <;> norm_num at h ⊢ <;> linarith
  have h2 : (2 + 2 * (-1) * (D / L) > (1 / 10 ^ 8) ^ 2) ↔ D < (1 - 5 / 10 ^ 17) * L := by
    rw [← div_lt_iff₀ p]
    constructor <;> intro h <;> norm_num at h ⊢ <;> linarith
  rw [h1, h2]

/-! ## C156 -/

/-- **C156** A vertex that is not on the boundary gets flag 0. -/
theorem C156_interior {T : Tri d} {circ : Nat → List (Option Nat)} (h : Circulates T circ) (pos : Nat → Fin d → ℝ) (v : Nat) (hv : ¬ OnBoundary T v) :
    boundaryFlag circ pos (-1) v = some 0 := by
  unfold boundaryFlag
  rw [if_pos rfl, if_neg]
  rw [atBoundary_iff h]
  exact hv

/-- **C156** For a vertex on the boundary with exactly two neighbours on the boundary the flag is 1 iff the cosine of the angle between the edges to
them is, in absolute value, below `1 - 5e-17`, that is, unless the three vertices are (almost) on a line. -/
theorem C156_boundary {T : Tri d} {circ : Nat → List (Option Nat)} (h : Circulates T circ) (pos : Nat → Fin d → ℝ) (v a b : Nat) (hv : OnBoundary T v) (hab : a ≠ b)
    (hn : ∀ w, BoundaryNeighbour T v w ↔ w = a ∨ w = b) (ha : pos v ≠ pos a) (hb : pos v ≠ pos b) :
    ∃ f, boundaryFlag circ pos (-1) v = some f ∧ (f = 0 ∨ f = 1) ∧
      (f = 1 ↔ |dot (pos v - pos a) (pos v - pos b)| < (1 - 5 / 10 ^ 17) * (len (pos v - pos a) * len (pos v - pos b))) := by
  have hp : (incidentAtBoundary circ v).Perm [a, b] := by
    rw [List.perm_ext_iff_of_nodup (incident_nodup h v) (by simpa using hab)]
    intro w
    rw [mem_incident h, hn]
    simp
  have key : ∀ x y : Nat, pos v ≠ pos x → pos v ≠ pos y → incidentAtBoundary circ v = [x, y] →
      ∃ f, boundaryFlag circ pos (-1) v = some f ∧ (f = 0 ∨ f = 1) ∧
        (f = 1 ↔ |dot (pos v - pos x) (pos v - pos y)| < (1 - 5 / 10 ^ 17) * (len (pos v - pos x) * len (pos v - pos y))) := by
    intro x y hx hy hl
    unfold boundaryFlag
    rw [if_pos rfl, if_pos ((atBoundary_iff h v).2 hv), hl]
    simp only
    split
    · rename_i ht
      exact ⟨1, rfl, Or.inr rfl, iff_of_true rfl ((tests_iff pos hx hy).1 ht)⟩
    · rename_i ht
      exact ⟨0, rfl, Or.inl rfl, iff_of_false (by decide) fun hc => ht ((tests_iff pos hx hy).2 hc)⟩
  have hcases : incidentAtBoundary circ v = [a, b] ∨ incidentAtBoundary circ v = [b, a] := by
    generalize incidentAtBoundary circ v = l at hp
    have hl := hp.length_eq
    match l, hl with
    | [x, y], _ =>
      have hx : x = a ∨ x = b := by simpa using hp.mem_iff.1 (List.mem_cons_self ..)
      have hy : y = a ∨ y = b := by simpa using hp.mem_iff.1 (show y ∈ [x, y] by simp)
      have hne : x ≠ y := by simpa using hp.nodup_iff.2 (by simpa using hab)
      rcases hx with rfl | rfl <;> rcases hy with rfl | rfl <;> simp_all
  rcases hcases with hl | hl
  · exact key a b ha hb hl
  · obtain ⟨f, h1, h2, h3⟩ := key b a hb ha hl
    refine ⟨f, h1, h2, h3.trans ?_⟩
    have : dot (pos v - pos b) (pos v - pos a) = dot (pos v - pos a) (pos v - pos b) := by
      unfold dot
      exact Finset.sum_congr rfl fun i _ => mul_comm _ _
    rw [this, mul_comm (len (pos v - pos b))]

/-- **C156** If the three vertices are on a line the flag is 0. -/
theorem C156_straight {T : Tri d} {circ : Nat → List (Option Nat)} (h : Circulates T circ) (pos : Nat → Fin d → ℝ) (v a b : Nat) (hv : OnBoundary T v) (hab : a ≠ b)
    (hn : ∀ w, BoundaryNeighbour T v w ↔ w = a ∨ w = b) (ha : pos v ≠ pos a) (hb : pos v ≠ pos b) (t : ℝ)
    (ht : ∀ i, pos v i - pos a i = t * (pos v i - pos b i)) : boundaryFlag circ pos (-1) v = some 0 := by
  obtain ⟨f, h1, h2, h3⟩ := C156_boundary h pos v a b hv hab hn ha hb
  rcases h2 with rfl | rfl
  · exact h1
  · exfalso
    have := h3.1 rfl
    have hy : pos v - pos b ≠ 0 := sub_ne_zero.2 hb
    have hx : pos v - pos a ≠ 0 := sub_ne_zero.2 ha
    have e : pos v - pos a = t • (pos v - pos b) := by
      funext i
      exact ht i
    have d1 : dot (pos v - pos a) (pos v - pos b) = t * len (pos v - pos b) ^ 2 := by
      rw [← norm_eq_len, norm_sq]
      unfold dot
      rw [Finset.mul_sum]
      refine Finset.sum_congr rfl fun i _ => ?_
      rw [e]
      simp only [Pi.smul_apply, smul_eq_mul]
      ring
    have d2 : len (pos v - pos a) = |t| * len (pos v - pos b) := by
      have : len (pos v - pos a) ^ 2 = (|t| * len (pos v - pos b)) ^ 2 := by
        rw [mul_pow, sq_abs, ← norm_eq_len, ← norm_eq_len, norm_sq, norm_sq, Finset.mul_sum]
        refine Finset.sum_congr rfl fun i _ => ?_
        rw [e]
        simp only [Pi.smul_apply, smul_eq_mul]
        ring
      exact (sq_eq_sq₀ (len_pos hx).le (mul_nonneg (abs_nonneg _) (len_pos hy).le)).1 this
    rw [d1, d2, abs_mul, abs_of_nonneg (sq_nonneg (len (pos v - pos b)))] at this
    have pt : 0 ≤ |t| * len (pos v - pos b) ^ 2 := by positivity
    nlinarith

/-- **C156** An angle whose sine is at least `1e-8` (in absolute value; `D` is the scalar product, so that `1 - (D / L)^2` is the square of the sine) gives flag 1. -/
theorem C156_corner {T : Tri d} {circ : Nat → List (Option Nat)} (h : Circulates T circ) (pos : Nat → Fin d → ℝ) (v a b : Nat) (hv : OnBoundary T v) (hab : a ≠ b)
    (hn : ∀ w, BoundaryNeighbour T v w ↔ w = a ∨ w = b) (ha : pos v ≠ pos a) (hb : pos v ≠ pos b)
    (hsin : (1 / 10 ^ 8) ^ 2 * (len (pos v - pos a) * len (pos v - pos b)) ^ 2 ≤
      (len (pos v - pos a) * len (pos v - pos b)) ^ 2 - dot (pos v - pos a) (pos v - pos b) ^ 2) : boundaryFlag circ pos (-1) v = some 1 := by
  obtain ⟨f, h1, h2, h3⟩ := C156_boundary h pos v a b hv hab hn ha hb
  rw [h1, h3.2]
  have p := mul_pos (len_pos (sub_ne_zero.2 ha)) (len_pos (sub_ne_zero.2 hb))
  generalize len (pos v - pos a) * len (pos v - pos b) = L at p hsin ⊢
  apply abs_lt_of_sq_lt_sq
  · have : 0 < L ^ 2 := by positivity
    rw [mul_pow]
    norm_num at hsin ⊢
    linarith
  · norm_num
    linarith

/-- **C156** The flag is computed once: every later call returns the stored flag, wherever the vertices are then. -/
theorem C156_cached (circ circ' : Nat → List (Option Nat)) (pos pos' : Nat → Fin d → ℝ) (v : Nat) (f : Int) (h : boundaryFlag circ pos (-1) v = some f) :
    boundaryFlag circ' pos' f v = some f := by
  have hf : f ≠ -1 := by
    rintro rfl
    unfold boundaryFlag at h
    rw [if_pos rfl] at h
    split at h
    · split at h
      · split at h <;> simp at h
      · simp at h
      · simp at h
    · simp at h
  unfold boundaryFlag
  rw [if_neg hf]

/-- In a closed triangulation a vertex on the boundary has at least `d` neighbours on the boundary. -/
theorem many {T : Tri d} (hd : 2 ≤ d) (hT : T.Valid) (hC : Closed T) {v : Nat} (hv : OnBoundary T v) :
    ∃ S : Finset Nat, d ≤ S.card ∧ ∀ w ∈ S, BoundaryNeighbour T v w := by
  obtain ⟨c, hc, ⟨i, hi⟩, ⟨j, hj⟩⟩ := hv
  have hinj := hT.inj c hc
  obtain ⟨h, hh⟩ := List.getElem?_of_mem hc
  have hij : i ≠ j := by
    rintro rfl
    rw [hi] at hj
    cases hj
  have hfin : ∀ k, k ≠ j → ∃ a, c k = some a := by
    intro k hk
    cases ha : c k with
    | some a => exact ⟨a, rfl⟩
    | none => exact absurd (hinj (ha.trans hj.symm)) hk
  let g : Fin (d + 1) → Nat := fun k => (c k).getD 0
  have hg : ∀ k, k ≠ j → c k = some (g k) := by
    intro k hk
    obtain ⟨a, ha⟩ := hfin k hk
    simp [g, ha]
  let K : Finset (Fin (d + 1)) := (Finset.univ.erase j).erase i
  have hK : K.card = d - 1 := by
    rw [Finset.card_erase_of_mem (Finset.mem_erase.2 ⟨hij, Finset.mem_univ _⟩), Finset.card_erase_of_mem (Finset.mem_univ _), Finset.card_univ, Fintype.card_fin]
    rfl
  have hmemK : ∀ k, k ∈ K ↔ k ≠ i ∧ k ≠ j := by simp [K]
  have hgK : (K.image g).card = d - 1 := by
    rw [Finset.card_image_of_injOn, hK]
    intro k hk l hl hkl
    have hk := ((hmemK k).1 hk).2
    have hl := ((hmemK l).1 hl).2
    apply hinj
    rw [hg k hk, hg l hl]
    exact congrArg some hkl
  obtain ⟨k, hk⟩ : K.Nonempty := by
    rw [← Finset.card_pos, hK]
    omega
  have hki := ((hmemK k).1 hk).1
  have hkj := ((hmemK k).1 hk).2
  obtain ⟨h', hn⟩ := hC.total h k c hh
  obtain ⟨hne, c', i', hc', hf⟩ := (hT.nbr_iff h k c hh h').1 hn
  have hinj' := hT.inj c' (List.mem_of_getElem? hc')
  have hmem : ∀ w, (∃ l, l ≠ i' ∧ c' l = w) ↔ ∃ l, l ≠ k ∧ c l = w := by
    intro w
    have := Finset.ext_iff.1 hf w
    simpa [facetOf] using this
  obtain ⟨j', hj', hcj'⟩ := (hmem none).2 ⟨j, Ne.symm hkj, hj⟩
  have hx : c' i' ≠ none := fun h0 => hj' (hinj' (hcj'.trans h0.symm))
  obtain ⟨x, hx⟩ := Option.ne_none_iff_exists'.1 hx
  have hnot : ∀ l, l ≠ k → c l ≠ some x := by
    intro l hl h0
    obtain ⟨l', hl', hcl'⟩ := (hmem (some x)).2 ⟨l, hl, h0⟩
    exact hl' (hinj' (hcl'.trans hx.symm))
  have hxk : c k ≠ some x := by
    intro h0
    have hsame : facetOf c' j' = facetOf c j := by
      ext w
      have : (∃ l, l ≠ j' ∧ c' l = w) ↔ ∃ l, l ≠ j ∧ c l = w := by
        constructor
        · rintro ⟨l, hl, rfl⟩
          by_cases hli : l = i'
          · subst hli
            exact ⟨k, hkj, h0.trans hx.symm⟩
          · obtain ⟨l2, _, h3⟩ := (hmem (c' l)).1 ⟨l, hli, rfl⟩
            refine ⟨l2, ?_, h3⟩
            rintro rfl
            exact hl (hinj' (h3.symm.trans (hj.trans hcj'.symm)))
        · rintro ⟨l, hl, rfl⟩
          by_cases hlk : l = k
          · subst hlk
            exact ⟨i', Ne.symm hj', hx.trans h0.symm⟩
          · obtain ⟨l2, _, h3⟩ := (hmem (c l)).2 ⟨l, hlk, rfl⟩
            refine ⟨l2, ?_, h3⟩
            rintro rfl
            exact hl (hinj (h3.symm.trans (hcj'.trans hj.symm)))
      simpa [facetOf] using this
    have := (hT.nbr_iff h j c hh h').2 ⟨hne, c', j', hc', hsame⟩
    exact hC.hull h j c h' c' hh hj this hc' j' hcj'
  obtain ⟨iv, _, hiv⟩ := (hmem (some v)).2 ⟨i, Ne.symm hki, hi⟩
  refine ⟨insert x (K.image g), ?_, ?_⟩
  · rw [Finset.card_insert_of_notMem, hgK]
    · omega
    · intro hm
      obtain ⟨l, hl, rfl⟩ := Finset.mem_image.1 hm
      by_cases hlk : l = k
      · exact hxk (hlk ▸ hg l ((hmemK l).1 hl).2)
      · exact hnot l hlk (hg l ((hmemK l).1 hl).2)
  · intro w hw
    rcases Finset.mem_insert.1 hw with rfl | hw
    · refine ⟨⟨?_, c', List.mem_of_getElem? hc', ⟨iv, hiv⟩, ⟨i', hx⟩⟩, c', List.mem_of_getElem? hc', ⟨i', hx⟩, ⟨j', hcj'⟩⟩
      intro h0
      exact hnot i (Ne.symm hki) (hi.trans h0)
    · obtain ⟨l, hl, rfl⟩ := Finset.mem_image.1 hw
      obtain ⟨hli, hlj⟩ := (hmemK l).1 hl
      refine ⟨⟨?_, c, hc, ⟨i, hi⟩, ⟨l, hg l hlj⟩⟩, c, hc, ⟨l, hg l hlj⟩, ⟨j, hj⟩⟩
      intro h0
      exact hli (hinj ((hg l hlj).trans (h0.symm.trans hi.symm)))

theorem length_ge {T : Tri d} {circ : Nat → List (Option Nat)} (h : Circulates T circ) {v n : Nat} {S : Finset Nat} (hS : n ≤ S.card)
    (hw : ∀ w ∈ S, BoundaryNeighbour T v w) : n ≤ (incidentAtBoundary circ v).length := by
  rw [← List.toFinset_card_of_nodup (incident_nodup h v)]
  refine le_trans hS (Finset.card_le_card fun w hm => ?_)
  rw [List.mem_toFinset, mem_incident h]
  exact hw w hm

/-- **C156** In a closed triangulation the flag is defined for every vertex: there are always two neighbours to compare. -/
theorem C156_defined {T : Tri d} (hd : 2 ≤ d) (hT : T.Valid) (hC : Closed T) {circ : Nat → List (Option Nat)} (h : Circulates T circ)
    (pos : Nat → Fin d → ℝ) (v : Nat) : boundaryFlag circ pos (-1) v = some 0 ∨ boundaryFlag circ pos (-1) v = some 1 := by
  by_cases hv : OnBoundary T v
  · obtain ⟨S, hS, hw⟩ := many hd hT hC hv
    have hl := length_ge h (le_trans hd hS) hw
    unfold boundaryFlag
    rw [if_pos rfl, if_pos ((atBoundary_iff h v).2 hv)]
    match incidentAtBoundary circ v, hl with
    | [a, b], _ =>
      simp only
      split
      · exact Or.inr rfl
      · exact Or.inl rfl
    | _ :: _ :: _ :: _, _ => exact Or.inl rfl
  · exact Or.inl (C156_interior h pos v hv)

/-! ## C157 -/

/-- A vertex on the boundary with three neighbours on the boundary gets flag 0, whatever the angles are. -/
theorem C157_three {T : Tri d} {circ : Nat → List (Option Nat)} (h : Circulates T circ) (pos : Nat → Fin d → ℝ) (v : Nat) (hv : OnBoundary T v)
    (S : Finset Nat) (hS : 3 ≤ S.card) (hw : ∀ w ∈ S, BoundaryNeighbour T v w) : boundaryFlag circ pos (-1) v = some 0 := by
  have hl := length_ge h hS hw
  unfold boundaryFlag
  rw [if_pos rfl, if_pos ((atBoundary_iff h v).2 hv)]
  match incidentAtBoundary circ v, hl with
  | _ :: _ :: _ :: _, _ => rfl

/-- **C157 fails in 3D** in every closed triangulation: no vertex ever gets flag 1. -/
theorem C157_3d_false {T : Tri 3} (hT : T.Valid) (hC : Closed T) {circ : Nat → List (Option Nat)} (h : Circulates T circ)
    (pos : Nat → Fin 3 → ℝ) (v : Nat) : boundaryFlag circ pos (-1) v = some 0 := by
  by_cases hv : OnBoundary T v
  · obtain ⟨S, hS, hw⟩ := many (by omega) hT hC hv
    exact C157_three h pos v hv S hS hw
  · exact C156_interior h pos v hv

/-! ## The unit square -/

/-- The vertices joined with `v`, in some order. -/
def circOf (T : Tri d) (v : Nat) : List (Option Nat) :=
  (((T.cells.filter fun c => decide (∃ i, c i = some v)).flatMap List.ofFn).filter fun w => w ≠ some v).dedup

theorem circOf_circulates (T : Tri d) : Circulates T (circOf T) := by
  intro v
  refine ⟨List.nodup_dedup _, fun w => ?_⟩
  unfold circOf Incident.Joined
  simp only [List.mem_dedup, List.mem_filter, List.mem_flatMap, List.mem_ofFn, decide_eq_true_eq]
  constructor
  · rintro ⟨⟨c, ⟨hc, hi⟩, ⟨j, hj⟩⟩, hne⟩
    exact ⟨Ne.symm hne, c, hc, hi, j, hj⟩
  · rintro ⟨hne, c, hc, hi, j, hj⟩
    exact ⟨⟨c, ⟨hc, hi⟩, ⟨j, hj⟩⟩, Ne.symm hne⟩

/-- The corners of the unit square; the triangles `0 1 2` and `3 2 1` of `exTri` share the diagonal from vertex 1 to vertex 2. -/
def square : Nat → Fin 2 → ℝ
  | 0 => ![0, 0]
  | 1 => ![1, 0]
  | 2 => ![0, 1]
  | _ => ![1, 1]

theorem exTri_closed : Closed InterfaceIter.exTri := by
  have h1 : ∀ h < InterfaceIter.exTri.cells.length, ∀ i, (InterfaceIter.exTri.nbr h i).isSome := by decide +kernel
  have h2 : ∀ h < InterfaceIter.exTri.cells.length, ∀ i, ∀ c ∈ InterfaceIter.exTri.cells[h]?, c i = none → ∀ h' ∈ InterfaceIter.exTri.nbr h i,
      ∀ c' ∈ InterfaceIter.exTri.cells[h']?, ∀ j, c' j ≠ none := by decide +kernel
  constructor
  · intro h i c hc
    exact Option.isSome_iff_exists.1 (h1 h (List.getElem?_eq_some_iff.1 hc).1 i)
  · intro h i c h' c' hc hi hn hc'
    exact h2 h (List.getElem?_eq_some_iff.1 hc).1 i c hc hi h' hn c' hc'

theorem ex_onBoundary (v : Nat) (h : atBoundary (circOf InterfaceIter.exTri) v = true) : OnBoundary InterfaceIter.exTri v :=
  (atBoundary_iff (circOf_circulates _) v).1 h

/-- At the corner `0` the flag is 1. -/
theorem square_zero : boundaryFlag (circOf InterfaceIter.exTri) square (-1) 0 = some 1 := by
  refine C156_corner (circOf_circulates _) square 0 1 2 (ex_onBoundary 0 (by decide +kernel)) (by decide) (fun w => ?_) ?_ ?_ ?_
  · rw [← mem_incident (circOf_circulates _)]
    have : incidentAtBoundary (circOf InterfaceIter.exTri) 0 = [1, 2] := by decide +kernel
    rw [this]
    simp
  · intro h
    have := congrFun h 0
    simp [square] at this
  · intro h
    have := congrFun h 1
    simp [square] at this
  · simp only [len, dot, square, Fin.sum_univ_two, Pi.sub_apply, Matrix.cons_val_zero, Matrix.cons_val_one]
    norm_num

/-- **C157 fails in 2D** In the unit square, cut along the diagonal from vertex 1 to vertex 2, the corner `1` has a right angle between the boundary edges to `0` and to `3`, but
gets flag 0: the vertex at the other end of the diagonal counts as well. The corner `0` gets flag 1. -/
theorem C157_false : InterfaceIter.exTri.Valid ∧ Closed InterfaceIter.exTri ∧ Circulates InterfaceIter.exTri (circOf InterfaceIter.exTri) ∧
    (∃ c ∈ InterfaceIter.exTri.cells, none ∈ List.ofFn c ∧ some 1 ∈ List.ofFn c ∧ some 0 ∈ List.ofFn c) ∧
    (∃ c ∈ InterfaceIter.exTri.cells, none ∈ List.ofFn c ∧ some 1 ∈ List.ofFn c ∧ some 3 ∈ List.ofFn c) ∧
    dot (square 1 - square 0) (square 1 - square 3) = 0 ∧
    boundaryFlag (circOf InterfaceIter.exTri) square (-1) 1 = some 0 ∧
    boundaryFlag (circOf InterfaceIter.exTri) square (-1) 0 = some 1 := by
  refine ⟨InterfaceIter.exTri_valid, exTri_closed, circOf_circulates _, by decide +kernel, by decide +kernel, ?_, ?_, square_zero⟩
  · simp [dot, square, Fin.sum_univ_two]
  · refine C157_three (circOf_circulates _) square 1 (ex_onBoundary 1 (by decide +kernel)) {0, 2, 3} (by decide) (fun w hw => ?_)
    rw [← mem_incident (circOf_circulates _)]
    have : ∀ w ∈ ({0, 2, 3} : Finset Nat), w ∈ incidentAtBoundary (circOf InterfaceIter.exTri) 1 := by decide +kernel
    exact this w hw

/-- The hypotheses of C156 and C157 can be met: the square above, and in 3D two tetrahedra with a common facet. -/
example : boundaryFlag (circOf InterfaceIter.exTri) square (-1) 1 = some 0 ∨ boundaryFlag (circOf InterfaceIter.exTri) square (-1) 1 = some 1 :=
  C156_defined (by decide) InterfaceIter.exTri_valid exTri_closed (circOf_circulates _) square 1

/-- Vertex `0` moved onto the diagonal: straight, flag 0. -/
example : boundaryFlag (circOf InterfaceIter.exTri) (fun n => if n = 0 then ![1 / 2, 1 / 2] else square n) (-1) 0 = some 0 := by
  refine C156_straight (circOf_circulates _) _ 0 1 2 (ex_onBoundary 0 (by decide +kernel)) (by decide) (fun w => ?_) ?_ ?_ (-1) ?_
  · rw [← mem_incident (circOf_circulates _)]
    have : incidentAtBoundary (circOf InterfaceIter.exTri) 0 = [1, 2] := by decide +kernel
    rw [this]
    simp
  · intro h
    have := congrFun h 1
    simp [square] at this
  · intro h
    have := congrFun h 0
    simp [square] at this
  · intro i
    fin_cases i <;> simp [square] <;> norm_num

/-- Two tetrahedra with a common facet. -/
def exTri3 : Tri 3 := ofTds (buildTds scheme3 exMesh3 (createElements scheme3 exMesh3).st.fmap)

theorem exTri3_closed : Closed exTri3 := by
  have h1 : ∀ h < exTri3.cells.length, ∀ i, (exTri3.nbr h i).isSome := by decide +kernel
  have h2 : ∀ h < exTri3.cells.length, ∀ i, ∀ c ∈ exTri3.cells[h]?, c i = none → ∀ h' ∈ exTri3.nbr h i,
      ∀ c' ∈ exTri3.cells[h']?, ∀ j, c' j ≠ none := by decide +kernel
  constructor
  · intro h i c hc
    exact Option.isSome_iff_exists.1 (h1 h (List.getElem?_eq_some_iff.1 hc).1 i)
  · intro h i c h' c' hc hi hn hc'
    exact h2 h (List.getElem?_eq_some_iff.1 hc).1 i c hc hi h' hn c' hc'

example (pos : Nat → Fin 3 → ℝ) : boundaryFlag (circOf exTri3) pos (-1) 0 = some 0 :=
  C157_3d_false (ofTds_valid scheme3_valid exMesh3_mesh _ (List.Perm.refl _)) exTri3_closed (circOf_circulates _) pos 0

end Verif.BoundaryFlag
