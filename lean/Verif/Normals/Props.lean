import Verif.Normals.Model

/-!
# C10, C11: outer normals
-/

namespace Verif.Normals

variable {K : Type*} [Field K] [LinearOrder K] [IsStrictOrderedRing K]

/-- The three corners of a triangle in counterclockwise order. -/
def Positive2 (P : Fin 3 → V2 K) : Prop := 0 < (P 0).orient (P 1) (P 2)

/-- A positively oriented tetrahedron (CGAL's convention). -/
def Positive3 (P : Fin 4 → V3 K) : Prop := 0 < (P 0).orient (P 1) (P 2) (P 3)

/-- Squared integration element of the segment `a b` (its squared length). -/
def len2 (a b : V2 K) : K := (b.sub a).dot (b.sub a)

/-- Squared integration element of the triangle `a b c`: the Gram determinant of its map. -/
def gram3 (a b c : V3 K) : K :=
  ((b.sub a).dot (b.sub a)) * ((c.sub a).dot (c.sub a)) - ((b.sub a).dot (c.sub a)) ^ 2

/-- **C10** 2D: the integration outer normal of facet `i` is perpendicular to the facet, points away from the
element (the opposite vertex, hence every point of the element not on the facet, is on its negative side), and
its length is the integration element of the facet. -/
theorem C10_normal_2d (P : Fin 3 → V2 K) (h : Positive2 P) (i : Fin 3) :
    (bulkNormal2 P i).dot ((P (i + 2)).sub (P (i + 1))) = 0 ∧
    (bulkNormal2 P i).dot ((P i).sub (P (i + 1))) < 0 ∧
    (bulkNormal2 P i).dot (bulkNormal2 P i) = len2 (P (i + 1)) (P (i + 2)) := by
  unfold Positive2 V2.orient at h
  match i with
  | 0 =>
    have e1 : ((0 : Fin 3) + 1) = 1 := rfl
    have e2 : ((0 : Fin 3) + 2) = 2 := rfl
    simp only [bulkNormal2, V2.dot, V2.sub, len2, e1, e2]
    refine ⟨by ring, by linarith, by ring⟩
  | 1 =>
    have e1 : ((1 : Fin 3) + 1) = 2 := rfl
    have e2 : ((1 : Fin 3) + 2) = 0 := rfl
    simp only [bulkNormal2, V2.dot, V2.sub, len2, e1, e2]
    refine ⟨by ring, by linarith, by ring⟩
  | 2 =>
    have e1 : ((2 : Fin 3) + 1) = 0 := rfl
    have e2 : ((2 : Fin 3) + 2) = 1 := rfl
    simp only [bulkNormal2, V2.dot, V2.sub, len2, e1, e2]
    refine ⟨by ring, by linarith, by ring⟩

/-- **C10** 2D: the integration outer normals of an element add up to zero (for any element). -/
theorem C10_closed_2d (P : Fin 3 → V2 K) :
    ((bulkNormal2 P 0).add (bulkNormal2 P 1)).add (bulkNormal2 P 2) = ⟨0, 0⟩ := by
  have e : ((1 : Fin 3) + 1) = 2 ∧ ((1 : Fin 3) + 2) = 0 ∧ ((2 : Fin 3) + 1) = 0 ∧ ((2 : Fin 3) + 2) = 1 := by
    decide
  obtain ⟨e1, e2, e3, e4⟩ := e
  ext
  · simp only [bulkNormal2, V2.add, e1, e2, e3, e4, zero_add]; ring
  · simp only [bulkNormal2, V2.add, e1, e2, e3, e4, zero_add]; ring

/-- **C10** 2D: two positively oriented elements on different sides of a common facet compute opposite normals.
The common facet is given by the end points, in either order. -/
theorem C10_opposite_2d (P Q : Fin 3 → V2 K) (i j : Fin 3) (hP : Positive2 P) (hQ : Positive2 Q)
    (hshare : (P (i + 1) = Q (j + 1) ∧ P (i + 2) = Q (j + 2)) ∨ (P (i + 1) = Q (j + 2) ∧ P (i + 2) = Q (j + 1)))
    (hside : (P (i + 1)).orient (P (i + 2)) (P i) * (P (i + 1)).orient (P (i + 2)) (Q j) < 0) :
    bulkNormal2 Q j = (bulkNormal2 P i).neg := by
  have cyc : ∀ (R : Fin 3 → V2 K) (k : Fin 3), Positive2 R → 0 < (R (k + 1)).orient (R (k + 2)) (R k) := by
    intro R k h
    unfold Positive2 V2.orient at *
    match k with
    | 0 =>
      have e1 : ((0 : Fin 3) + 1) = 1 := rfl
      have e2 : ((0 : Fin 3) + 2) = 2 := rfl
      rw [e1, e2]; linarith
    | 1 =>
      have e1 : ((1 : Fin 3) + 1) = 2 := rfl
      have e2 : ((1 : Fin 3) + 2) = 0 := rfl
      rw [e1, e2]; linarith
    | 2 =>
      have e1 : ((2 : Fin 3) + 1) = 0 := rfl
      have e2 : ((2 : Fin 3) + 2) = 1 := rfl
      rw [e1, e2]; linarith
  have h1 := cyc P i hP
  have h2 := cyc Q j hQ
  rcases hshare with ⟨ha, hb⟩ | ⟨ha, hb⟩
  · exfalso
    rw [← ha, ← hb] at h2
    have := mul_pos h1 h2
    linarith
  · ext
    · simp only [bulkNormal2, V2.neg, ← ha, ← hb]; ring
    · simp only [bulkNormal2, V2.neg, ← ha, ← hb]; ring

/-- Non-vacuity: the two triangles of the unit square. -/
example : Positive2 (fun i : Fin 3 => ([⟨0, 0⟩, ⟨1, 0⟩, ⟨0, 1⟩] : List (V2 ℚ)).get i) ∧
    Positive2 (fun i : Fin 3 => ([⟨1, 1⟩, ⟨0, 1⟩, ⟨1, 0⟩] : List (V2 ℚ)).get i) := by
  constructor <;> (unfold Positive2 V2.orient; norm_num)

/-- **C10** 3D. -/
theorem C10_normal_3d (P : Fin 4 → V3 K) (h : Positive3 P) (i : Fin 4) :
    (bulkNormal3 P i).dot ((P (i + 2)).sub (P (i + 1))) = 0 ∧
    (bulkNormal3 P i).dot ((P (i + 3)).sub (P (i + 1))) = 0 ∧
    (bulkNormal3 P i).dot ((P i).sub (P (i + 1))) < 0 ∧
    (bulkNormal3 P i).dot (bulkNormal3 P i) = gram3 (P (i + 1)) (P (i + 2)) (P (i + 3)) := by
  unfold Positive3 V3.orient at h
  match i with
  | 0 =>
    have e1 : ((0 : Fin 4) + 1) = 1 := rfl
    have e2 : ((0 : Fin 4) + 2) = 2 := rfl
    have e3 : ((0 : Fin 4) + 3) = 3 := rfl
    have e4 : (0 : Fin 4).val % 2 = 0 := rfl
    simp only [bulkNormal3, cgalNormal, V3.cross, V3.dot, V3.sub, gram3, e1, e2, e3, e4, if_true] at h ⊢
    refine ⟨by ring, by ring, by linarith, by ring⟩
  | 1 =>
    have e1 : ((1 : Fin 4) + 1) = 2 := rfl
    have e2 : ((1 : Fin 4) + 2) = 3 := rfl
    have e3 : ((1 : Fin 4) + 3) = 0 := rfl
    have e4 : ¬ (1 : Fin 4).val % 2 = 0 := by decide
    simp only [bulkNormal3, cgalNormal, V3.cross, V3.dot, V3.sub, gram3, e1, e2, e3, if_neg e4] at h ⊢
    refine ⟨by ring, by ring, by linarith, by ring⟩
  | 2 =>
    have e1 : ((2 : Fin 4) + 1) = 3 := rfl
    have e2 : ((2 : Fin 4) + 2) = 0 := rfl
    have e3 : ((2 : Fin 4) + 3) = 1 := rfl
    have e4 : (2 : Fin 4).val % 2 = 0 := rfl
    simp only [bulkNormal3, cgalNormal, V3.cross, V3.dot, V3.sub, gram3, e1, e2, e3, e4, if_true] at h ⊢
    refine ⟨by ring, by ring, by linarith, by ring⟩
  | 3 =>
    have e1 : ((3 : Fin 4) + 1) = 0 := rfl
    have e2 : ((3 : Fin 4) + 2) = 1 := rfl
    have e3 : ((3 : Fin 4) + 3) = 2 := rfl
    have e4 : ¬ (3 : Fin 4).val % 2 = 0 := by decide
    simp only [bulkNormal3, cgalNormal, V3.cross, V3.dot, V3.sub, gram3, e1, e2, e3, if_neg e4] at h ⊢
    refine ⟨by ring, by ring, by linarith, by ring⟩

/-- The squared integration element of a triangle does not depend on the order of its corners, so the last
statement of `C10_normal_3d` holds for the corner order of `geometry()` too. -/
theorem C10_gram_symmetric (a b c : V3 K) : gram3 a b c = gram3 b a c ∧ gram3 a b c = gram3 a c b := by
  simp only [gram3, V3.dot, V3.sub]
  constructor <;> ring

/-- **C10** 3D: the integration outer normals of an element add up to zero. -/
theorem C10_closed_3d (P : Fin 4 → V3 K) :
    (((bulkNormal3 P 0).add (bulkNormal3 P 1)).add (bulkNormal3 P 2)).add (bulkNormal3 P 3) = ⟨0, 0, 0⟩ := by
  have e : ((1 : Fin 4) + 1) = 2 ∧ ((1 : Fin 4) + 2) = 3 ∧ ((1 : Fin 4) + 3) = 0 ∧
      ((2 : Fin 4) + 1) = 3 ∧ ((2 : Fin 4) + 2) = 0 ∧ ((2 : Fin 4) + 3) = 1 ∧
      ((3 : Fin 4) + 1) = 0 ∧ ((3 : Fin 4) + 2) = 1 ∧ ((3 : Fin 4) + 3) = 2 := by decide
  obtain ⟨a1, a2, a3, a4, a5, a6, a7, a8, a9⟩ := e
  have f : (0 : Fin 4).val % 2 = 0 ∧ ¬ (1 : Fin 4).val % 2 = 0 ∧ (2 : Fin 4).val % 2 = 0 ∧
      ¬ (3 : Fin 4).val % 2 = 0 := by decide
  obtain ⟨b1, b2, b3, b4⟩ := f
  ext
  all_goals
    simp only [bulkNormal3, cgalNormal, V3.cross, V3.sub, V3.add, a1, a2, a3, a4, a5, a6, a7, a8, a9, b1, b3,
      if_neg b2, if_neg b4, if_true, zero_add]
    ring

theorem perm2 {α : Type*} {b c q r : α} (h : [b, c].Perm [q, r]) : (b = q ∧ c = r) ∨ (b = r ∧ c = q) := by
  have hb : b ∈ [q, r] := h.subset (List.mem_cons_self ..)
  simp only [List.mem_cons, List.not_mem_nil, or_false] at hb
  rcases hb with rfl | rfl
  · left
    have := List.Perm.cons_inv h
    exact ⟨rfl, by simpa using this⟩
  · right
    have := List.Perm.cons_inv (h.trans (List.Perm.swap ..))
    exact ⟨rfl, by simpa using this⟩

theorem perm3 {α : Type*} {a b c p q r : α} (h : [a, b, c].Perm [p, q, r]) :
    (a = p ∧ b = q ∧ c = r) ∨ (a = p ∧ b = r ∧ c = q) ∨ (a = q ∧ b = p ∧ c = r) ∨ (a = q ∧ b = r ∧ c = p) ∨
    (a = r ∧ b = p ∧ c = q) ∨ (a = r ∧ b = q ∧ c = p) := by
  have ha : a ∈ [p, q, r] := h.subset (List.mem_cons_self ..)
  simp only [List.mem_cons, List.not_mem_nil, or_false] at ha
  rcases ha with rfl | rfl | rfl
  · rcases perm2 (List.Perm.cons_inv h) with ⟨rfl, rfl⟩ | ⟨rfl, rfl⟩ <;> simp
  · rcases perm2 (List.Perm.cons_inv (h.trans (List.Perm.swap ..))) with ⟨rfl, rfl⟩ | ⟨rfl, rfl⟩ <;> simp
  · have h' : [p, q, a].Perm [a, p, q] :=
      ((List.Perm.swap a q []).cons p).trans (List.Perm.swap a p [q])
    rcases perm2 (List.Perm.cons_inv (h.trans h')) with ⟨rfl, rfl⟩ | ⟨rfl, rfl⟩ <;> simp

/-- Rewriting the 3D normal through the orientation only: it is characterised by its scalar products. -/
theorem normal3_eq (P : Fin 4 → V3 K) (i : Fin 4) (w : V3 K) :
    (bulkNormal3 P i).dot w = (if i.val % 2 = 0 then 1 else -1) *
      (((P (i + 2)).sub (P (i + 1))).cross ((P (i + 3)).sub (P (i + 1)))).dot w := by
  unfold bulkNormal3 cgalNormal
  split <;> simp only [V3.cross, V3.dot, V3.sub] <;> ring

/-- **C10** 3D: two positively oriented elements on different sides of a common facet compute opposite
normals; the three common points may be stored in any order. -/
theorem C10_opposite_3d (P Q : Fin 4 → V3 K) (i j : Fin 4) (hP : Positive3 P) (hQ : Positive3 Q)
    (hshare : [Q (j + 1), Q (j + 2), Q (j + 3)].Perm [P (i + 1), P (i + 2), P (i + 3)])
    (hside : (P (i + 1)).orient (P (i + 2)) (P (i + 3)) (P i) *
      (P (i + 1)).orient (P (i + 2)) (P (i + 3)) (Q j) < 0) :
    bulkNormal3 Q j = (bulkNormal3 P i).neg := by
  -- the normal is plus or minus the cross product of the common points, in each of the six orders
  have base : ∀ (R : Fin 4 → V3 K) (k : Fin 4), bulkNormal3 R k = cgalNormal (R (k + 1)) (R (k + 2)) (R (k + 3)) ∨
      bulkNormal3 R k = (cgalNormal (R (k + 1)) (R (k + 2)) (R (k + 3))).neg := by
    intro R k
    unfold bulkNormal3
    split
    · exact Or.inl rfl
    · right; ext <;> simp only [cgalNormal, V3.cross, V3.sub, V3.neg] <;> ring
  have six : cgalNormal (Q (j + 1)) (Q (j + 2)) (Q (j + 3)) = cgalNormal (P (i + 1)) (P (i + 2)) (P (i + 3)) ∨
      cgalNormal (Q (j + 1)) (Q (j + 2)) (Q (j + 3)) = (cgalNormal (P (i + 1)) (P (i + 2)) (P (i + 3))).neg := by
    generalize Q (j + 1) = q1 at hshare
    generalize Q (j + 2) = q2 at hshare
    generalize Q (j + 3) = q3 at hshare
    generalize P (i + 1) = p1 at hshare
    generalize P (i + 2) = p2 at hshare
    generalize P (i + 3) = p3 at hshare
    have hm := perm3 hshare
    rcases hm with ⟨rfl, rfl, rfl⟩ | ⟨rfl, rfl, rfl⟩ | ⟨rfl, rfl, rfl⟩ | ⟨rfl, rfl, rfl⟩ | ⟨rfl, rfl, rfl⟩ |
      ⟨rfl, rfl, rfl⟩
    all_goals first
      | (left; ext <;> simp only [cgalNormal, V3.cross, V3.sub] <;> ring; done)
      | (right; ext <;> simp only [cgalNormal, V3.cross, V3.sub, V3.neg] <;> ring)
  have hPn := (C10_normal_3d P hP i).2.2.1
  have hQn := (C10_normal_3d Q hQ j).2.2.1
  -- scalar products with the opposite vertices decide the sign
  have horP : (P (i + 1)).orient (P (i + 2)) (P (i + 3)) (P i)
      = (cgalNormal (P (i + 1)) (P (i + 2)) (P (i + 3))).dot ((P i).sub (P (i + 1))) := rfl
  have horQ : (P (i + 1)).orient (P (i + 2)) (P (i + 3)) (Q j)
      = (cgalNormal (P (i + 1)) (P (i + 2)) (P (i + 3))).dot ((Q j).sub (P (i + 1))) := rfl
  have negdot : ∀ a b : V3 K, a.neg.dot b = -(a.dot b) := by
    intro a b; simp only [V3.neg, V3.dot]; ring
  have negneg : ∀ a : V3 K, a.neg.neg = a := by
    intro a; ext <;> simp only [V3.neg, neg_neg]
  -- the reference point on the facet does not matter
  have hmove : (cgalNormal (P (i + 1)) (P (i + 2)) (P (i + 3))).dot ((Q j).sub (Q (j + 1)))
      = (cgalNormal (P (i + 1)) (P (i + 2)) (P (i + 3))).dot ((Q j).sub (P (i + 1))) := by
    have hmem : Q (j + 1) ∈ [P (i + 1), P (i + 2), P (i + 3)] := hshare.subset (List.mem_cons_self ..)
    simp only [List.mem_cons, List.not_mem_nil, or_false] at hmem
    rcases hmem with h | h | h <;> rw [h] <;> simp only [cgalNormal, V3.cross, V3.sub, V3.dot] <;> ring
  rw [horP, horQ] at hside
  set N := cgalNormal (P (i + 1)) (P (i + 2)) (P (i + 3)) with hN
  have finish : ∀ sP sQ : Bool, bulkNormal3 P i = (if sP then N else N.neg) →
      bulkNormal3 Q j = (if sQ then N else N.neg) → bulkNormal3 Q j = (bulkNormal3 P i).neg := by
    intro sP sQ h1 h2
    rw [h1] at hPn
    rw [h2] at hQn
    cases sP <;> cases sQ
    · exfalso
      simp only [Bool.false_eq_true, if_false, negdot, hmove] at hPn hQn
      nlinarith [mul_pos (neg_lt_zero.1 hPn) (neg_lt_zero.1 hQn)]
    · rw [h1, h2]; simp [negneg]
    · rw [h1, h2]; simp
    · exfalso
      simp only [if_true, hmove] at hPn hQn
      nlinarith [mul_pos_of_neg_of_neg hPn hQn]
  rcases base P i with hp | hp <;> rcases base Q j with hq | hq <;> rcases six with hs | hs <;> rw [hs] at hq
  · exact finish true true (by simpa using hp) (by simpa using hq)
  · exact finish true false (by simpa using hp) (by simpa using hq)
  · exact finish true false (by simpa using hp) (by simpa using hq)
  · exact finish true true (by simpa using hp) (by simpa [negneg] using hq)
  · exact finish false true (by simpa using hp) (by simpa using hq)
  · exact finish false false (by simpa using hp) (by simpa using hq)
  · exact finish false false (by simpa using hp) (by simpa using hq)
  · exact finish false true (by simpa using hp) (by simpa [negneg] using hq)

/-- The hypothesis on the orientation is needed: for a negatively oriented tetrahedron (which the explicit 3D
factory accepts unchanged, see C14) every "outer" normal points into the element. -/
theorem C10_inward_if_negative (P : Fin 4 → V3 K) (h : (P 0).orient (P 1) (P 2) (P 3) < 0) (i : Fin 4) :
    0 < (bulkNormal3 P i).dot ((P i).sub (P (i + 1))) := by
  unfold V3.orient at h
  match i with
  | 0 =>
    have e1 : ((0 : Fin 4) + 1) = 1 := rfl
    have e2 : ((0 : Fin 4) + 2) = 2 := rfl
    have e3 : ((0 : Fin 4) + 3) = 3 := rfl
    have e4 : (0 : Fin 4).val % 2 = 0 := rfl
    simp only [bulkNormal3, cgalNormal, V3.cross, V3.dot, V3.sub, e1, e2, e3, e4, if_true] at h ⊢
    linarith
  | 1 =>
    have e1 : ((1 : Fin 4) + 1) = 2 := rfl
    have e2 : ((1 : Fin 4) + 2) = 3 := rfl
    have e3 : ((1 : Fin 4) + 3) = 0 := rfl
    have e4 : ¬ (1 : Fin 4).val % 2 = 0 := by decide
    simp only [bulkNormal3, cgalNormal, V3.cross, V3.dot, V3.sub, e1, e2, e3, if_neg e4] at h ⊢
    linarith
  | 2 =>
    have e1 : ((2 : Fin 4) + 1) = 3 := rfl
    have e2 : ((2 : Fin 4) + 2) = 0 := rfl
    have e3 : ((2 : Fin 4) + 3) = 1 := rfl
    have e4 : (2 : Fin 4).val % 2 = 0 := rfl
    simp only [bulkNormal3, cgalNormal, V3.cross, V3.dot, V3.sub, e1, e2, e3, e4, if_true] at h ⊢
    linarith
  | 3 =>
    have e1 : ((3 : Fin 4) + 1) = 0 := rfl
    have e2 : ((3 : Fin 4) + 2) = 1 := rfl
    have e3 : ((3 : Fin 4) + 3) = 2 := rfl
    have e4 : ¬ (3 : Fin 4).val % 2 = 0 := by decide
    simp only [bulkNormal3, cgalNormal, V3.cross, V3.dot, V3.sub, e1, e2, e3, if_neg e4] at h ⊢
    linarith

/-- Non-vacuity: the reference tetrahedron. -/
example : Positive3 (fun i : Fin 4 => ([⟨0, 0, 0⟩, ⟨1, 0, 0⟩, ⟨0, 1, 0⟩, ⟨0, 0, 1⟩] : List (V3 ℚ)).get i) := by
  unfold Positive3 V3.orient V3.cross V3.dot V3.sub; norm_num

/-! ### unit normals -/

/-- **C10** The unit normal is a positive multiple of the integration normal and has length one. -/
theorem C10_unit (n : V3 ℝ) (h : n.dot n ≠ 0) :
    (∃ c > 0, normalize3 n = ⟨c * n.x, c * n.y, c * n.z⟩) ∧ (normalize3 n).dot (normalize3 n) = 1 := by
  have h0 : 0 ≤ n.dot n := by
    have : n.dot n = n.x ^ 2 + n.y ^ 2 + n.z ^ 2 := by unfold V3.dot; ring
    rw [this]; positivity
  have hpos : 0 < n.dot n := lt_of_le_of_ne h0 (Ne.symm h)
  have hs : 0 < √(n.dot n) := Real.sqrt_pos.2 hpos
  refine ⟨⟨1 / √(n.dot n), by positivity, ?_⟩, ?_⟩
  · ext <;> simp only [normalize3] <;> ring
  · have : √(n.dot n) * √(n.dot n) = n.dot n := Real.mul_self_sqrt h0
    have e : (normalize3 n).dot (normalize3 n) = n.dot n / (√(n.dot n) * √(n.dot n)) := by
      generalize hr : √(n.dot n) = r at *
      have e3 : normalize3 n = ⟨n.x / r, n.y / r, n.z / r⟩ := by simp only [normalize3, hr]
      rw [e3]
      simp only [V3.dot]
      field_simp
    rw [e, this, div_self h]

theorem unit2 (n : V2 ℝ) (h : n.dot n ≠ 0) :
    (∃ c > 0, normalize2 n = ⟨c * n.x, c * n.y⟩) ∧ (normalize2 n).dot (normalize2 n) = 1 := by
  have h0 : 0 ≤ n.dot n := by
    have : n.dot n = n.x ^ 2 + n.y ^ 2 := by unfold V2.dot; ring
    rw [this]; positivity
  have hpos : 0 < n.dot n := lt_of_le_of_ne h0 (Ne.symm h)
  have hs : 0 < √(n.dot n) := Real.sqrt_pos.2 hpos
  refine ⟨⟨1 / √(n.dot n), by positivity, ?_⟩, ?_⟩
  · ext <;> simp only [normalize2] <;> ring
  · have : √(n.dot n) * √(n.dot n) = n.dot n := Real.mul_self_sqrt h0
    have e : (normalize2 n).dot (normalize2 n) = n.dot n / (√(n.dot n) * √(n.dot n)) := by
      generalize hr : √(n.dot n) = r at *
      have e3 : normalize2 n = ⟨n.x / r, n.y / r⟩ := by simp only [normalize2, hr]
      rw [e3]
      simp only [V2.dot]
      field_simp
    rw [e, this, div_self h]

/-- **C10** The unit outer normal of a bulk facet in 2D: length one, perpendicular, pointing away. -/
theorem C10_unit_2d (P : Fin 3 → V2 ℝ) (h : Positive2 P) (i : Fin 3) :
    (normalize2 (bulkNormal2 P i)).dot (normalize2 (bulkNormal2 P i)) = 1 ∧
    (normalize2 (bulkNormal2 P i)).dot ((P (i + 2)).sub (P (i + 1))) = 0 ∧
    (normalize2 (bulkNormal2 P i)).dot ((P i).sub (P (i + 1))) < 0 := by
  obtain ⟨h1, h2, -⟩ := C10_normal_2d P h i
  have hne : (bulkNormal2 P i).dot (bulkNormal2 P i) ≠ 0 := by
    intro h0
    have hx : (bulkNormal2 P i).x = 0 ∧ (bulkNormal2 P i).y = 0 := by
      unfold V2.dot at h0
      constructor <;> nlinarith [mul_self_nonneg (bulkNormal2 P i).x, mul_self_nonneg (bulkNormal2 P i).y]
    simp only [V2.dot, hx.1, hx.2] at h2
    norm_num at h2
  obtain ⟨⟨c, hc, he⟩, hu⟩ := unit2 _ hne
  refine ⟨hu, ?_, ?_⟩
  · rw [he]; unfold V2.dot at h1 ⊢; simp only; linear_combination c * h1
  · rw [he]
    have := mul_neg_of_pos_of_neg hc h2
    unfold V2.dot at this ⊢; simp only at this ⊢; linarith

/-! ## C11 -/

/-- The triangle is not degenerate (its area is not zero). -/
def NonDegenerate (a b v : V3 K) : Prop := 0 < gram3 a b v

/-- **C11** The outer normal of edge `index` of an interface triangle is perpendicular to the edge, lies
in the plane of the triangle and points away from the opposite corner. The length is the subject of C100. -/
theorem C11_direction (C : Fin 3 → V3 K) (index : Fin 3)
    (h : NonDegenerate (C (if index = 2 then 1 else 0)) (C (if index = 0 then 1 else 2)) (C (Fin.rev index))) :
    let a := C (if index = 2 then 1 else 0)
    let b := C (if index = 0 then 1 else 2)
    let v := C (Fin.rev index)
    let n := interfaceNormal2 C index
    n.dot (b.sub a) = 0 ∧ (∃ s t : K, n = ⟨s * (b.sub a).x + t * (b.sub v).x, s * (b.sub a).y + t * (b.sub v).y,
      s * (b.sub a).z + t * (b.sub v).z⟩) ∧ 0 < n.dot (b.sub v) ∧ 0 < n.dot (a.sub v) ∧
    n.dot n = ((b.sub a).dot (b.sub a)) * gram3 a b v := by
  intro a b v n
  change NonDegenerate a b v at h
  have key : (((b.sub a).cross ((b.sub a).cross (b.sub v))).dot (b.sub v)) = - gram3 a b v := by
    simp only [V3.dot, V3.cross, V3.sub, gram3]; ring
  have hn : n = ((b.sub a).cross ((b.sub a).cross (b.sub v))).neg := by
    have : n = if ((b.sub a).cross ((b.sub a).cross (b.sub v))).dot (b.sub v) < 0
        then ((b.sub a).cross ((b.sub a).cross (b.sub v))).neg
        else (b.sub a).cross ((b.sub a).cross (b.sub v)) := rfl
    rw [this, key, if_pos (neg_neg_of_pos h)]
  have hg : 0 < gram3 a b v := h
  rw [hn]
  refine ⟨?_, ⟨-((b.sub a).dot (b.sub v)), (b.sub a).dot (b.sub a), ?_⟩, ?_, ?_, ?_⟩
  · simp only [V3.dot, V3.cross, V3.sub, V3.neg]; ring
  · ext <;> simp only [V3.dot, V3.cross, V3.sub, V3.neg] <;> ring
  · have : (((b.sub a).cross ((b.sub a).cross (b.sub v))).neg).dot (b.sub v) = gram3 a b v := by
      simp only [V3.dot, V3.cross, V3.sub, V3.neg, gram3]; ring
    rw [this]; exact hg
  · have : (((b.sub a).cross ((b.sub a).cross (b.sub v))).neg).dot (a.sub v) = gram3 a b v := by
      simp only [V3.dot, V3.cross, V3.sub, V3.neg, gram3]; ring
    rw [this]; exact hg
  · simp only [V3.dot, V3.cross, V3.sub, V3.neg, gram3]; ring

/-- Non-vacuity and the claim that fails: the triangle (0,0,0), (2,0,0), (0,1,0) is not degenerate, but its
integration outer normal of edge 0 has squared length 16 although the edge has squared length 4. -/
theorem C100_length_false :
    let C : Fin 3 → V3 ℚ := fun i => ([⟨0, 0, 0⟩, ⟨2, 0, 0⟩, ⟨0, 1, 0⟩] : List (V3 ℚ)).get i
    NonDegenerate (C 0) (C 1) (C 2) ∧ (interfaceNormal2 C 0).dot (interfaceNormal2 C 0) = 16 ∧
    ((C 1).sub (C 0)).dot ((C 1).sub (C 0)) = 4 := by
  refine ⟨?_, ?_, ?_⟩
  · unfold NonDegenerate gram3 V3.dot V3.sub; norm_num
  · unfold interfaceNormal2 V3.dot V3.neg V3.cross V3.sub
    simp [Fin.rev]
    norm_num
  · unfold V3.dot V3.sub; norm_num

/-- **C100** (part) The length is right exactly when twice the area of the triangle is one. -/
theorem C100_length_iff (C : Fin 3 → V3 K)
    (h : NonDegenerate (C 0) (C 1) (C 2)) :
    (interfaceNormal2 C 0).dot (interfaceNormal2 C 0) = ((C 1).sub (C 0)).dot ((C 1).sub (C 0)) ↔
      gram3 (C 0) (C 1) (C 2) = 1 := by
  have hl := (C11_direction C 0 (by simpa [Fin.rev] using h)).2.2.2.2
  have e1 : C (if (0 : Fin 3) = 2 then 1 else 0) = C 0 := by simp
  have e2 : C (if (0 : Fin 3) = 0 then 1 else 2) = C 1 := by simp
  have e3 : C (Fin.rev 0) = C 2 := by congr 1
  have hl : (interfaceNormal2 C 0).dot (interfaceNormal2 C 0)
      = (((C 1).sub (C 0)).dot ((C 1).sub (C 0))) * gram3 (C 0) (C 1) (C 2) := by
    rw [hl, e1, e2, e3]
  rw [hl]
  have hne : ((C 1).sub (C 0)).dot ((C 1).sub (C 0)) ≠ 0 := by
    intro h0
    have hx : ((C 1).sub (C 0)).x = 0 ∧ ((C 1).sub (C 0)).y = 0 ∧ ((C 1).sub (C 0)).z = 0 := by
      generalize (C 1).sub (C 0) = w at h0
      unfold V3.dot at h0
      refine ⟨?_, ?_, ?_⟩ <;>
        nlinarith [mul_self_nonneg w.x, mul_self_nonneg w.y, mul_self_nonneg w.z]
    unfold NonDegenerate gram3 at h
    generalize (C 1).sub (C 0) = w at *
    simp only [V3.dot, hx.1, hx.2.1, hx.2.2] at h
    norm_num at h
  constructor
  · intro heq
    have : ((C 1).sub (C 0)).dot ((C 1).sub (C 0)) * (gram3 (C 0) (C 1) (C 2) - 1) = 0 := by
      rw [mul_sub, heq]; ring
    rcases mul_eq_zero.1 this with h0 | h0
    · exact absurd h0 hne
    · linarith
  · intro heq; rw [heq, mul_one]

/-- **C11** The unit outer normal (which the code obtains by normalising) is correct: length one, perpendicular
to the edge, pointing away from the opposite corner. -/
theorem C11_unit (C : Fin 3 → V3 ℝ) (index : Fin 3)
    (h : NonDegenerate (C (if index = 2 then 1 else 0)) (C (if index = 0 then 1 else 2)) (C (Fin.rev index))) :
    let a := C (if index = 2 then 1 else 0)
    let b := C (if index = 0 then 1 else 2)
    let v := C (Fin.rev index)
    let n := normalize3 (interfaceNormal2 C index)
    n.dot n = 1 ∧ n.dot (b.sub a) = 0 ∧ 0 < n.dot (b.sub v) ∧ 0 < n.dot (a.sub v) := by
  intro a b v n
  obtain ⟨h1, -, h3, h4, -⟩ := C11_direction C index h
  have hne : (interfaceNormal2 C index).dot (interfaceNormal2 C index) ≠ 0 := by
    intro h0
    have hx : (interfaceNormal2 C index).x = 0 ∧ (interfaceNormal2 C index).y = 0 ∧
        (interfaceNormal2 C index).z = 0 := by
      unfold V3.dot at h0
      refine ⟨?_, ?_, ?_⟩ <;> nlinarith [mul_self_nonneg (interfaceNormal2 C index).x,
        mul_self_nonneg (interfaceNormal2 C index).y, mul_self_nonneg (interfaceNormal2 C index).z]
    simp only [V3.dot, hx.1, hx.2.1, hx.2.2] at h3
    norm_num at h3
  obtain ⟨⟨c, hc, he⟩, hu⟩ := C10_unit _ hne
  have sc : ∀ w : V3 ℝ, n.dot w = c * (interfaceNormal2 C index).dot w := by
    intro w
    change (normalize3 (interfaceNormal2 C index)).dot w = _
    rw [he]; unfold V3.dot; simp only; ring
  refine ⟨hu, ?_, ?_, ?_⟩
  · rw [sc, h1, mul_zero]
  · rw [sc]; exact mul_pos hc h3
  · rw [sc]; exact mul_pos hc h4

/-- **C11** (interface segments in the plane) The outer normal at an end point has length one, is parallel to
the segment and points away from the other end point. -/
theorem C11_segment (C : Fin 2 → V2 ℝ) (index : Fin 2)
    (h : ((C index).sub (C (Fin.rev index))).dot ((C index).sub (C (Fin.rev index))) ≠ 0) :
    (interfaceNormal1 C index).dot (interfaceNormal1 C index) = 1 ∧
    ∃ c > 0, interfaceNormal1 C index = ⟨c * ((C index).sub (C (Fin.rev index))).x,
      c * ((C index).sub (C (Fin.rev index))).y⟩ := by
  obtain ⟨⟨c, hc, he⟩, hu⟩ := unit2 _ h
  exact ⟨hu, c, hc, he⟩

end Verif.Normals
