import Verif.IntersectionIter.Props
import Verif.Normals.Props
import Mathlib.Algebra.BigOperators.Group.Finset.Sigma

/-!
# C229: sums over the intersections of the grid
-/

namespace Verif.IntersectionIter

open Finset Normals

/-! ## Specification -/

/-- The neighbours of the elements of a grid: neighbours are elements of the grid, an element is a neighbour of its neighbours, two elements have at most one facet in common, and an element is not its own
neighbour. -/
structure Mates (m : Parallel.Mesh) (dim : Nat) (nb : Nat → Nat → Option Nat) : Prop where
  mem : ∀ c ∈ m.cells, ∀ s ≤ dim, ∀ d, nb c s = some d → d ∈ m.cells
  back : ∀ c ∈ m.cells, ∀ s ≤ dim, ∀ d, nb c s = some d → ∃ t ≤ dim, nb d t = some c
  once : ∀ c ∈ m.cells, ∀ s ≤ dim, ∀ t ≤ dim, ∀ d, nb c s = some d → nb c t = some d → s = t
  ne : ∀ c ∈ m.cells, ∀ s ≤ dim, nb c s ≠ some c

/-- What a user computes on the process `p`: a loop over the interior elements and over the intersections `l c` that the iterator shows for the element `c`, with the sum of a flux `F` out of the element. -/
def outflow {A : Type*} [AddCommGroup A] (m : Parallel.Mesh) (p : Nat) (l : Nat → List Nat) (F : Nat → Nat → A) : A :=
  ((m.cells.filter fun c => decide ((Parallel.compute m p).part c = 0)).map fun c => ((l c).map (F c)).sum).sum

/-- The facets at the boundary of the domain: element and slot. -/
def boundaryFacets (m : Parallel.Mesh) (dim : Nat) (nb : Nat → Nat → Option Nat) : Finset (Nat × Nat) := (m.cells.toFinset ×ˢ range (dim + 1)).filter fun x => nb x.1 x.2 = none

/-! ## Sums -/

variable {A : Type*} [AddCommGroup A] {dim : Nat} {nb : Nat → Nat → Option Nat} {m : Parallel.Mesh}

theorem sum_visits {part : Nat → Int} {c : Nat} {l : List Nat} (hc : part c ≠ 2) (h : Visits dim part nb c l) (f : Nat → A) : (l.map f).sum = ∑ s ∈ range (dim + 1), f s := by
  obtain ⟨l', -, h2, h3, h4⟩ := C228_iterate dim part nb c
  have hl := h2 l h
  subst hl
  rw [← List.sum_toFinset f (h3.imp fun h => Nat.ne_of_gt h)]
  congr 1
  ext s
  rw [List.mem_toFinset, h4, mem_range]
  simp [hc]

theorem outflow_eq (hw : m.WF) (hnd : m.cells.Nodup) {p : Nat} {l : Nat → List Nat} (hl : ∀ c, Visits dim (Parallel.compute m p).part nb c (l c)) (F : Nat → Nat → A) :
    outflow m p l F = ∑ c ∈ m.cells.toFinset.filter (fun c => m.rank c = p), ∑ s ∈ range (dim + 1), F c s := by
  unfold outflow
  rw [← List.sum_toFinset _ (hnd.filter _)]
  refine Finset.sum_congr ?_ fun c hc => ?_
  · ext c
    simp [Parallel.C35_interior hw]
  · rw [mem_filter] at hc
    refine sum_visits ?_ (hl c) (F c)
    rw [(Parallel.C35_interior hw p c).2 hc.2]
    decide

/-- **C229** Let a flux through a facet have opposite values on the two sides. Then the sum over all interior elements of all processes and over their intersections is the sum over the facets at the
boundary of the domain: nothing is lost or counted twice between elements and between processes. -/
theorem C229_sum (hw : m.WF) (hnd : m.cells.Nodup) (hm : Mates m dim nb) {R : Nat} (hR : ∀ c ∈ m.cells, m.rank c < R) {l : Nat → Nat → List Nat}
    (hl : ∀ p c, Visits dim (Parallel.compute m p).part nb c (l p c)) (F : Nat → Nat → A)
    (hF : ∀ c ∈ m.cells, ∀ s ≤ dim, ∀ d, nb c s = some d → ∀ t ≤ dim, nb d t = some c → F d t = - F c s) :
    ∑ p ∈ range R, outflow m p (l p) F = ∑ x ∈ boundaryFacets m dim nb, F x.1 x.2 := by
  have h1 : ∑ p ∈ range R, outflow m p (l p) F = ∑ c ∈ m.cells.toFinset, ∑ s ∈ range (dim + 1), F c s := by
    rw [Finset.sum_congr rfl fun p _ => outflow_eq hw hnd (hl p) F]
    exact Finset.sum_fiberwise_of_maps_to (fun c hc => mem_range.2 (hR c (List.mem_toFinset.1 hc))) _
  rw [h1, ← Finset.sum_product' (f := fun c s => F c s), ← Finset.sum_filter_add_sum_filter_not _ (fun x : Nat × Nat => nb x.1 x.2 = none)]
  unfold boundaryFacets
  rw [add_eq_left]
  have key : ∀ x ∈ (m.cells.toFinset ×ˢ range (dim + 1)).filter (fun x : Nat × Nat => ¬ nb x.1 x.2 = none), x.1 ∈ m.cells ∧ x.2 ≤ dim ∧ ∃ d t, nb x.1 x.2 = some d ∧ d ∈ m.cells ∧ t ≤ dim ∧ nb d t = some x.1 := by
    rintro ⟨c, s⟩ hx
    simp only [mem_filter, mem_product, List.mem_toFinset, mem_range, Nat.lt_succ_iff] at hx
    obtain ⟨⟨hc, hs⟩, hn⟩ := hx
    obtain ⟨d, hd⟩ := Option.ne_none_iff_exists'.1 hn
    obtain ⟨t, ht, htc⟩ := hm.back c hc s hs d hd
    exact ⟨hc, hs, d, t, hd, hm.mem c hc s hs d hd, ht, htc⟩
  choose! k1 k2 D T k3 k4 k5 k6 using key
  refine Finset.sum_involution (fun x _ => (D x, T x)) (fun x hx => ?_) (fun x hx _ => ?_) (fun x hx => ?_) fun x hx => ?_
  · rw [hF x.1 (k1 x hx) x.2 (k2 x hx) (D x) (k3 x hx) (T x) (k5 x hx) (k6 x hx)]
    exact add_neg_cancel _
  · intro h
    have := congrArg Prod.fst h
    dsimp only at this
    exact hm.ne x.1 (k1 x hx) x.2 (k2 x hx) (this ▸ k3 x hx)
  · simp only [mem_filter, mem_product, List.mem_toFinset, mem_range, Nat.lt_succ_iff]
    exact ⟨⟨k4 x hx, k5 x hx⟩, by rw [k6 x hx]; simp⟩
  · have hy : (D x, T x) ∈ (m.cells.toFinset ×ˢ range (dim + 1)).filter (fun x : Nat × Nat => ¬ nb x.1 x.2 = none) := by
      simp only [mem_filter, mem_product, List.mem_toFinset, mem_range, Nat.lt_succ_iff]
      exact ⟨⟨k4 x hx, k5 x hx⟩, by rw [k6 x hx]; simp⟩
    have e1 : D (D x, T x) = x.1 := by
      have := k3 _ hy
      dsimp only at this
      rw [k6 x hx] at this
      exact (Option.some.inj this).symm
    refine Prod.ext e1 ?_
    have h6 := k6 _ hy
    have h5 := k5 _ hy
    rw [e1] at h6
    exact hm.once x.1 (k1 x hx) _ h5 _ (k2 x hx) (D x) h6 (k3 x hx)

/-! ## Finite volumes -/

section

variable {K : Type*} [Field K] [LinearOrder K] [IsStrictOrderedRing K]

/-- The corners of the elements in the plane fit to the neighbours: all elements are positively oriented, neighbours have the end points of the facet in common and lie on different sides of it. -/
structure Fits2 (m : Parallel.Mesh) (nb : Nat → Nat → Option Nat) (P : Nat → Fin 3 → V2 K) : Prop where
  positive : ∀ c ∈ m.cells, Positive2 (P c)
  share : ∀ c ∈ m.cells, ∀ i j : Fin 3, ∀ d, nb c i = some d → nb d j = some c →
    (P c (i + 1) = P d (j + 1) ∧ P c (i + 2) = P d (j + 2)) ∨ (P c (i + 1) = P d (j + 2) ∧ P c (i + 2) = P d (j + 1))
  side : ∀ c ∈ m.cells, ∀ i j : Fin 3, ∀ d, nb c i = some d → nb d j = some c → (P c (i + 1)).orient (P c (i + 2)) (P c i) * (P c (i + 1)).orient (P c (i + 2)) (P d j) < 0

/-- Same in space. -/
structure Fits3 (m : Parallel.Mesh) (nb : Nat → Nat → Option Nat) (P : Nat → Fin 4 → V3 K) : Prop where
  positive : ∀ c ∈ m.cells, Positive3 (P c)
  share : ∀ c ∈ m.cells, ∀ i j : Fin 4, ∀ d, nb c i = some d → nb d j = some c → [P d (j + 1), P d (j + 2), P d (j + 3)].Perm [P c (i + 1), P c (i + 2), P c (i + 3)]
  side : ∀ c ∈ m.cells, ∀ i j : Fin 4, ∀ d, nb c i = some d → nb d j = some c →
    (P c (i + 1)).orient (P c (i + 2)) (P c (i + 3)) (P c i) * (P c (i + 1)).orient (P c (i + 2)) (P c (i + 3)) (P d j) < 0

/-- A finite volume scheme in 2D: the numerical flux `g` of the normal and the values `u` inside and outside, or the flux `b` at the boundary of the domain. The normal is `integrationOuterNormal()`. -/
def scheme2 {U : Type*} (nb : Nat → Nat → Option Nat) (P : Nat → Fin 3 → V2 K) (u : Nat → U) (g : V2 K → U → U → A) (b : Nat → Nat → A) (c s : Nat) : A :=
  match nb c s with
  | some d => g (bulkNormal2 (P c) (Fin.ofNat 3 s)) (u c) (u d)
  | none => b c s

/-- Same in 3D. -/
def scheme3 {U : Type*} (nb : Nat → Nat → Option Nat) (P : Nat → Fin 4 → V3 K) (u : Nat → U) (g : V3 K → U → U → A) (b : Nat → Nat → A) (c s : Nat) : A :=
  match nb c s with
  | some d => g (bulkNormal3 (P c) (Fin.ofNat 4 s)) (u c) (u d)
  | none => b c s

theorem val_ofNat {n s : Nat} (hs : s ≤ n) : (Fin.ofNat (n + 1) s).val = s := by
  simp only [Fin.ofNat]
  exact Nat.mod_eq_of_lt (by omega)

/-- **C229** A finite volume scheme in 2D with a conservative numerical flux changes the total amount only by the fluxes at the boundary of the domain, on any number of processes. -/
theorem C229_conservative_2d {U : Type*} (hw : m.WF) (hnd : m.cells.Nodup) (hm : Mates m 2 nb) {P : Nat → Fin 3 → V2 K} (hP : Fits2 m nb P) {R : Nat} (hR : ∀ c ∈ m.cells, m.rank c < R)
    {l : Nat → Nat → List Nat} (hl : ∀ p c, Visits 2 (Parallel.compute m p).part nb c (l p c)) (u : Nat → U) (g : V2 K → U → U → A) (hg : ∀ n x y, g n.neg y x = - g n x y) (b : Nat → Nat → A) :
    ∑ p ∈ range R, outflow m p (l p) (scheme2 nb P u g b) = ∑ x ∈ boundaryFacets m 2 nb, b x.1 x.2 := by
  rw [C229_sum hw hnd hm hR hl]
  · refine Finset.sum_congr rfl fun x hx => ?_
    have : nb x.1 x.2 = none := (mem_filter.1 hx).2
    simp only [scheme2, this]
  · intro c hc s hs d hd t ht htc
    simp only [scheme2, hd, htc]
    have hs' : nb c (Fin.ofNat 3 s).val = some d := by rw [val_ofNat hs, hd]
    have ht' : nb d (Fin.ofNat 3 t).val = some c := by rw [val_ofNat ht, htc]
    rw [C10_opposite_2d (P c) (P d) _ _ (hP.positive c hc) (hP.positive d (hm.mem c hc s hs d hd)) (hP.share c hc _ _ d hs' ht') (hP.side c hc _ _ d hs' ht'), hg]

/-- **C229** Same in 3D. -/
theorem C229_conservative_3d {U : Type*} (hw : m.WF) (hnd : m.cells.Nodup) (hm : Mates m 3 nb) {P : Nat → Fin 4 → V3 K} (hP : Fits3 m nb P) {R : Nat} (hR : ∀ c ∈ m.cells, m.rank c < R)
    {l : Nat → Nat → List Nat} (hl : ∀ p c, Visits 3 (Parallel.compute m p).part nb c (l p c)) (u : Nat → U) (g : V3 K → U → U → A) (hg : ∀ n x y, g n.neg y x = - g n x y) (b : Nat → Nat → A) :
    ∑ p ∈ range R, outflow m p (l p) (scheme3 nb P u g b) = ∑ x ∈ boundaryFacets m 3 nb, b x.1 x.2 := by
  rw [C229_sum hw hnd hm hR hl]
  · refine Finset.sum_congr rfl fun x hx => ?_
    have : nb x.1 x.2 = none := (mem_filter.1 hx).2
    simp only [scheme3, this]
  · intro c hc s hs d hd t ht htc
    simp only [scheme3, hd, htc]
    have hs' : nb c (Fin.ofNat 4 s).val = some d := by rw [val_ofNat hs, hd]
    have ht' : nb d (Fin.ofNat 4 t).val = some c := by rw [val_ofNat ht, htc]
    rw [C10_opposite_3d (P c) (P d) _ _ (hP.positive c hc) (hP.positive d (hm.mem c hc s hs d hd)) (hP.share c hc _ _ d hs' ht') (hP.side c hc _ _ d hs' ht'), hg]

/-- **C229** A constant state is kept: for a consistent numerical flux, `g n x x = f x · n`, the fluxes out of an element that is not at the boundary add up to zero, on every process that owns it (2D). -/
theorem C229_constant_2d {U : Type*} {part : Nat → Int} {c : Nat} {l : List Nat} (hc : part c ≠ 2) (hl : Visits 2 part nb c l) (hin : ∀ s ≤ 2, nb c s ≠ none) (P : Nat → Fin 3 → V2 K) (x : U) (f : U → V2 K)
    (g : V2 K → U → U → K) (hg : ∀ n, g n x x = (f x).dot n) (b : Nat → Nat → K) : (l.map (scheme2 nb P (fun _ => x) g b c)).sum = 0 := by
  rw [sum_visits hc hl]
  have h : ∀ s ≤ 2, scheme2 nb P (fun _ => x) g b c s = (f x).dot (bulkNormal2 (P c) (Fin.ofNat 3 s)) := by
    intro s hs
    obtain ⟨d, hd⟩ := Option.ne_none_iff_exists'.1 (hin s hs)
    simp only [scheme2, hd, hg]
  rw [Finset.sum_range_succ, Finset.sum_range_succ, Finset.sum_range_succ, Finset.sum_range_zero, h 0 (by omega), h 1 (by omega), h 2 (by omega)]
  have hc := C10_closed_2d (P c)
  have hx := congrArg V2.x hc
  have hy := congrArg V2.y hc
  change (bulkNormal2 (P c) 0).x + (bulkNormal2 (P c) 1).x + (bulkNormal2 (P c) 2).x = 0 at hx
  change (bulkNormal2 (P c) 0).y + (bulkNormal2 (P c) 1).y + (bulkNormal2 (P c) 2).y = 0 at hy
  change 0 + (f x).dot (bulkNormal2 (P c) 0) + (f x).dot (bulkNormal2 (P c) 1) + (f x).dot (bulkNormal2 (P c) 2) = 0
  unfold V2.dot
  linear_combination (f x).x * hx + (f x).y * hy

/-- **C229** Same in 3D. -/
theorem C229_constant_3d {U : Type*} {part : Nat → Int} {c : Nat} {l : List Nat} (hc : part c ≠ 2) (hl : Visits 3 part nb c l) (hin : ∀ s ≤ 3, nb c s ≠ none) (P : Nat → Fin 4 → V3 K) (x : U) (f : U → V3 K)
    (g : V3 K → U → U → K) (hg : ∀ n, g n x x = (f x).dot n) (b : Nat → Nat → K) : (l.map (scheme3 nb P (fun _ => x) g b c)).sum = 0 := by
  rw [sum_visits hc hl]
  have h : ∀ s ≤ 3, scheme3 nb P (fun _ => x) g b c s = (f x).dot (bulkNormal3 (P c) (Fin.ofNat 4 s)) := by
    intro s hs
    obtain ⟨d, hd⟩ := Option.ne_none_iff_exists'.1 (hin s hs)
    simp only [scheme3, hd, hg]
  rw [Finset.sum_range_succ, Finset.sum_range_succ, Finset.sum_range_succ, Finset.sum_range_succ, Finset.sum_range_zero, h 0 (by omega), h 1 (by omega), h 2 (by omega), h 3 (by omega)]
  have hc := C10_closed_3d (P c)
  have hx := congrArg V3.x hc
  have hy := congrArg V3.y hc
  have hz := congrArg V3.z hc
  change (bulkNormal3 (P c) 0).x + (bulkNormal3 (P c) 1).x + (bulkNormal3 (P c) 2).x + (bulkNormal3 (P c) 3).x = 0 at hx
  change (bulkNormal3 (P c) 0).y + (bulkNormal3 (P c) 1).y + (bulkNormal3 (P c) 2).y + (bulkNormal3 (P c) 3).y = 0 at hy
  change (bulkNormal3 (P c) 0).z + (bulkNormal3 (P c) 1).z + (bulkNormal3 (P c) 2).z + (bulkNormal3 (P c) 3).z = 0 at hz
  change 0 + (f x).dot (bulkNormal3 (P c) 0) + (f x).dot (bulkNormal3 (P c) 1) + (f x).dot (bulkNormal3 (P c) 2) + (f x).dot (bulkNormal3 (P c) 3) = 0
  unfold V3.dot
  linear_combination (f x).x * hx + (f x).y * hy + (f x).z * hz

end

/-! ## A case: the four triangles of `Parallel.bend`, two on each process -/

/-- Corners of a strip of four triangles, the facet to the next triangle is opposite to corner 0, the facet to the previous one is opposite to corner 1. -/
def stripCorners : Nat → Fin 3 → V2 ℚ
  | 0 => ![⟨0, 0⟩, ⟨1, 0⟩, ⟨0, 1⟩]
  | 1 => ![⟨1, 0⟩, ⟨1, 1⟩, ⟨0, 1⟩]
  | 2 => ![⟨1, 1⟩, ⟨1, 2⟩, ⟨0, 1⟩]
  | _ => ![⟨1, 2⟩, ⟨0, 2⟩, ⟨0, 1⟩]

theorem rowNb_cases {c s d : Nat} (h : rowNb c s = some d) : (s = 0 ∧ c < 3 ∧ d = c + 1) ∨ (s = 1 ∧ 0 < c ∧ c ≤ 3 ∧ d = c - 1) := by
  unfold rowNb at h
  split_ifs at h with h1 h2 <;> simp at h <;> omega

theorem strip_cells {c : Nat} : c ∈ Parallel.bend.cells ↔ c < 4 := by
  simp only [Parallel.bend, List.mem_cons, List.not_mem_nil, or_false]
  omega

theorem strip_mates : Mates Parallel.bend 2 rowNb where
  mem c _ s _ d h := strip_cells.2 (by rcases rowNb_cases h with h | h <;> omega)
  back c _ s _ d h := by
    rcases rowNb_cases h with ⟨_, h1, rfl⟩ | ⟨_, h1, h2, rfl⟩
    · exact ⟨1, by decide, by simp [rowNb]; omega⟩
    · exact ⟨0, by decide, by simp [rowNb]; omega⟩
  once c _ s _ t _ d h1 h2 := by
    rcases rowNb_cases h1 with h1 | h1 <;> rcases rowNb_cases h2 with h2 | h2 <;> omega
  ne c _ s _ h := by rcases rowNb_cases h with h | h <;> omega

theorem strip_pairs {c d : Nat} {i j : Fin 3} (h1 : rowNb c i = some d) (h2 : rowNb d j = some c) : (c < 3 ∧ d = c + 1 ∧ i = 0 ∧ j = 1) ∨ (d < 3 ∧ c = d + 1 ∧ i = 1 ∧ j = 0) := by
  have e0 : ∀ k : Fin 3, k.val = 0 → k = 0 := by decide
  have e1 : ∀ k : Fin 3, k.val = 1 → k = 1 := by decide
  rcases rowNb_cases h1 with ⟨a1, a2, a3⟩ | ⟨a1, a2, a3, a4⟩ <;> rcases rowNb_cases h2 with ⟨b1, b2, b3⟩ | ⟨b1, b2, b3, b4⟩
  · omega
  · exact Or.inl ⟨a2, a3, e0 _ a1, e1 _ b1⟩
  · exact Or.inr ⟨b2, b3, e1 _ a1, e0 _ b1⟩
  · omega

theorem strip_fits : Fits2 Parallel.bend rowNb stripCorners where
  positive c hc := by
    have hc := strip_cells.1 hc
    interval_cases c <;> simp [Positive2, V2.orient, stripCorners]
  share c _ i j d h1 h2 := by
    rcases strip_pairs h1 h2 with ⟨h, rfl, rfl, rfl⟩ | ⟨h, rfl, rfl, rfl⟩
    · interval_cases c <;> simp [stripCorners]
    · interval_cases d <;> simp [stripCorners]
  side c _ i j d h1 h2 := by
    rcases strip_pairs h1 h2 with ⟨h, rfl, rfl, rfl⟩ | ⟨h, rfl, rfl, rfl⟩
    · interval_cases c <;> decide +kernel
    · interval_cases d <;> decide +kernel

/-- The upwind flux for transport with the velocity (1, 2). -/
def upwind (n : V2 ℚ) (x y : ℚ) : ℚ := max (n.x + 2 * n.y) 0 * x + min (n.x + 2 * n.y) 0 * y

theorem upwind_conservative (n : V2 ℚ) (x y : ℚ) : upwind n.neg y x = - upwind n x y := by
  have h1 : n.neg.x + 2 * n.neg.y = - (n.x + 2 * n.y) := by
    simp only [V2.neg]
    ring
  have h2 : max (-(n.x + 2 * n.y)) 0 = - min (n.x + 2 * n.y) 0 := by
    rw [← neg_zero, max_neg_neg, neg_zero]
  have h3 : min (-(n.x + 2 * n.y)) 0 = - max (n.x + 2 * n.y) 0 := by
    rw [← neg_zero, min_neg_neg, neg_zero]
  unfold upwind
  rw [h1, h2, h3]
  ring

/-- **C229** for the strip on two processes: whatever the values are, the sum of the upwind fluxes of both processes is the sum over the boundary. -/
example (u : Nat → ℚ) (b : Nat → Nat → ℚ) (l : Nat → Nat → List Nat) (hl : ∀ p c, Visits 2 (Parallel.compute Parallel.bend p).part rowNb c (l p c)) :
    outflow Parallel.bend 0 (l 0) (scheme2 rowNb stripCorners u upwind b) + outflow Parallel.bend 1 (l 1) (scheme2 rowNb stripCorners u upwind b) =
      ∑ x ∈ boundaryFacets Parallel.bend 2 rowNb, b x.1 x.2 := by
  have := C229_conservative_2d Parallel.bend_wf (by decide) strip_mates strip_fits (R := 2) (by decide) hl u upwind upwind_conservative b
  rwa [Finset.sum_range_succ, Finset.sum_range_succ, Finset.sum_range_zero, zero_add] at this

/-- Such loops exist on both processes, and the boundary of the strip has six facets. -/
example : (∀ p c, ∃ l, Visits 2 (Parallel.compute Parallel.bend p).part rowNb c l) ∧ (boundaryFacets Parallel.bend 2 rowNb).card = 6 :=
  ⟨fun p c => let ⟨l, h, _⟩ := C228_iterate 2 (Parallel.compute Parallel.bend p).part rowNb c; ⟨l, h⟩, by decide⟩

/-- **C229** A triangle with three neighbours and a constant state. -/
example : ([2, 1, 0].map (scheme2 (fun _ s => some (s + 1)) stripCorners (fun _ => (5 : ℚ)) upwind (fun _ _ => 0) 0)).sum = 0 :=
  C229_constant_2d (part := fun _ => 0) (by decide)
    ⟨0, rfl, .step (i := 0) (j := 1) (by decide) rfl (.step (i := 1) (j := 2) (by decide) rfl (.step (i := 2) (j := 3) (by decide) rfl .done))⟩ (by simp) stripCorners 5 (fun x => ⟨x, 2 * x⟩) upwind
    (fun n => by
      unfold upwind V2.dot
      rw [← add_mul, max_add_min]
      ring) _

end Verif.IntersectionIter
