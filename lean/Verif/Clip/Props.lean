import Verif.Clip.Hull
import Mathlib.Algebra.Order.Ring.Int
import Mathlib.Algebra.Field.Rat
import Mathlib.Algebra.Order.Ring.Rat

/-!
# C40, C42: clipping of polygons, intersection of lines

Specification vocabulary (in `Lemmas.lean`): `side a b p`, twice the signed area of the triangle `a`, `b`, `p`; `hull`, the
convex hull of the points of a list.
-/

namespace Verif.Clip

set_option linter.unusedSectionVars false

variable {K : Type} [Field K] [LinearOrder K] [IsStrictOrderedRing K]

/-! ## Specification -/

/-- The points are in convex position in this order (collinear and repeated points are permitted). -/
def ConvexPosition (l : List (K × K)) : Prop := ∀ a b c, [a, b, c].Sublist l → 0 ≤ side a b c

/-- The same, clockwise. -/
def ConvexPositionCW (l : List (K × K)) : Prop := ∀ a b c, [a, b, c].Sublist l → side a b c ≤ 0

/-- A proper convex polygon, counter-clockwise: at least three points, any three of them are not on a line. -/
def StrictlyConvex (l : List (K × K)) : Prop := 3 ≤ l.length ∧ ∀ a b c, [a, b, c].Sublist l → 0 < side a b c

/-- `x` is at least `κ` to the left of all edges of the polygon. -/
def LeftOfAll (κ : K) (l : List (K × K)) (x : K × K) : Prop :=
  ∀ i (h : i < l.length), κ ≤ side (l[i]) (l[(i + 1) % l.length]'(Nat.mod_lt _ (by omega))) x

/-! ## Proofs -/

theorem convex3_of {σ : K} {l : List (K × K)} (h : ∀ a b c, [a, b, c].Sublist l → 0 ≤ σ * side a b c) : Convex3 σ l := by
  induction l with
  | nil => trivial
  | cons a l ih =>
    refine ⟨?_, ih fun x y z hs => h x y z (hs.cons _)⟩
    rw [List.pairwise_iff_forall_sublist]
    intro b c hbc
    exact h a b c (hbc.cons_cons a)

theorem edges_get (l : List (K × K)) (e : (K × K) × (K × K)) :
    e ∈ edges l ↔ ∃ i, ∃ h : i < l.length, e = (l[i], l[(i + 1) % l.length]'(Nat.mod_lt _ (by omega))) := by
  unfold edges
  rw [List.mem_iff_getElem]
  constructor
  · rintro ⟨i, hi, rfl⟩
    have hi' : i < l.length := by simpa using hi
    refine ⟨i, hi', ?_⟩
    rw [List.getElem_zip, List.getElem_rotate]
  · rintro ⟨i, hi, rfl⟩
    refine ⟨i, by simpa using hi, ?_⟩
    rw [List.getElem_zip, List.getElem_rotate]

theorem leftOfAll_iff (κ : K) (l : List (K × K)) (x : K × K) : LeftOfAll κ l x ↔ ∀ e ∈ edges l, pos e.1 e.2 x ≤ -κ := by
  constructor
  · intro h e he
    obtain ⟨i, hi, rfl⟩ := (edges_get l e).1 he
    rw [pos_eq]
    exact neg_le_neg (h i hi)
  · intro h i hi
    have := h _ ((edges_get l _).2 ⟨i, hi, rfl⟩)
    rw [pos_eq] at this
    exact neg_le_neg_iff.1 this

theorem fold_upper {ε : K} (hε : 0 ≤ ε) (qs : List ((K × K) × (K × K))) : ∀ l : List (K × K), ∀ x ∈ hull (qs.foldl (clipEdge ε) l),
    x ∈ hull l ∧ ∀ q ∈ qs, pos q.1 q.2 x ≤ ε := by
  induction qs with
  | nil => intro l x hx; exact ⟨hx, by simp⟩
  | cons q qs ih =>
    intro l x hx
    obtain ⟨h1, h2⟩ := ih (clipEdge ε l q) x hx
    refine ⟨clipEdge_hull hε q l h1, ?_⟩
    intro q' hq'
    rcases List.mem_cons.1 hq' with rfl | hq'
    · exact hull_min (convex_le q'.1 q'.2 ε) (fun y hy => clipEdge_le hε q' l hy) h1
    · exact h2 q' hq'

theorem fold_lower {ε : K} (hε : 0 ≤ ε) {σ : K} (hσ : σ ≠ 0) (qs : List ((K × K) × (K × K))) : ∀ l : List (K × K), Convex3 σ l →
    ∀ x ∈ hull l, (∀ q ∈ qs, pos q.1 q.2 x ≤ -ε) → x ∈ hull (qs.foldl (clipEdge ε) l) := by
  induction qs with
  | nil => intro l _ x hx _; exact hx
  | cons q qs ih =>
    intro l hc x hx hq
    refine ih _ (clipEdge_convex hε q hc) x ?_ fun q' hq' => hq q' (by simp [hq'])
    exact clipEdge_lower hε q hσ hc hx (hq q (by simp))

theorem fold_convex {ε : K} (hε : 0 ≤ ε) {σ : K} (qs : List ((K × K) × (K × K))) : ∀ l : List (K × K), Convex3 σ l →
    Convex3 σ (qs.foldl (clipEdge ε) l) := by
  induction qs with
  | nil => intro l hc; exact hc
  | cons q qs ih => intro l hc; exact ih _ (clipEdge_convex hε q hc)

theorem convexPosition_cases {l : List (K × K)} (h : ConvexPosition l ∨ ConvexPositionCW l) : ∃ σ : K, σ ≠ 0 ∧ Convex3 σ l := by
  rcases h with h | h
  · exact ⟨1, one_ne_zero, convex3_of fun a b c hs => by rw [one_mul]; exact h a b c hs⟩
  · refine ⟨-1, by simp, convex3_of fun a b c hs => ?_⟩
    have := h a b c hs
    linarith

/-! ## C40 -/

/-- C40, soundness, for all subject and clip polygons: the result lies in the convex hull of the subject and, up to the
tolerance, to the left of all edges of the clip polygon. -/
theorem C40_inside {ε : K} (hε : 0 ≤ ε) (subject clip : List (K × K)) :
    ∀ x ∈ hull (sutherlandHodgman ε subject clip), x ∈ hull subject ∧ LeftOfAll (-ε) clip x := by
  intro x hx
  obtain ⟨h1, h2⟩ := fold_upper hε (edges clip) subject x hx
  refine ⟨h1, (leftOfAll_iff _ _ _).2 fun e he => ?_⟩
  rw [neg_neg]
  exact h2 e he

/-- C40, completeness: of a convex subject (in any orientation) everything that is to the left of all clip edges, by more
than the tolerance, is in the result. -/
theorem C40_kept {ε : K} (hε : 0 ≤ ε) {subject : List (K × K)} (hs : ConvexPosition subject ∨ ConvexPositionCW subject)
    (clip : List (K × K)) : ∀ x ∈ hull subject, LeftOfAll ε clip x → x ∈ hull (sutherlandHodgman ε subject clip) := by
  intro x hx hl
  obtain ⟨σ, hσ, hc⟩ := convexPosition_cases hs
  exact fold_lower hε hσ _ subject hc x hx ((leftOfAll_iff _ _ _).1 hl)

theorem zip_consec {l : List (K × K)} {u v : K × K} (h : (u, v) ∈ l.zip l.tail) : ∃ S T, l = S ++ u :: v :: T := by
  induction l with
  | nil => simp at h
  | cons a l ih =>
    cases l with
    | nil => simp at h
    | cons b l =>
      simp only [List.tail_cons, List.zip_cons_cons, List.mem_cons] at h ih
      rcases h with h | h
      · simp only [Prod.mk.injEq] at h
        exact ⟨[], l, by rw [h.1, h.2]; rfl⟩
      · obtain ⟨S, T, hST⟩ := ih h
        exact ⟨a :: S, T, by rw [hST]; rfl⟩

/-- In convex position all points are to the left of all edges. -/
theorem edge_left {l : List (K × K)} (hc : Convex3 1 l) {e : (K × K) × (K × K)} (he : e ∈ edges l) {y : K × K} (hy : y ∈ l) :
    0 ≤ side e.1 e.2 y := by
  cases l with
  | nil => simp at hy
  | cons p t =>
    rw [edges_cons, zip_extend _ _ _ p] at he
    obtain ⟨S, T, hST⟩ := zip_consec (l := (p :: t) ++ [p]) (u := e.1) (v := e.2) (by simpa using he)
    have hc2 := convex3_close hc
    rw [← List.cons_append, hST] at hc2
    have hy2 : y ∈ S ++ e.1 :: e.2 :: T := by rw [← hST]; simp only [List.mem_append]; exact Or.inl hy
    simp only [List.mem_append, List.mem_cons] at hy2
    rcases hy2 with hy2 | rfl | rfl | hy2
    · have := convex3_triple hc2 (a := y) (b := e.1) (c := e.2)
        (List.Sublist.append (l₁ := [y]) (r₁ := [e.1, e.2]) (List.singleton_sublist.2 hy2) (List.Sublist.cons_cons _ (List.Sublist.cons_cons _ (List.nil_sublist _))))
      rwa [one_mul, ← side_cycle] at this
    · rw [side_self3]
    · rw [side_self2]
    · have := convex3_triple hc2 (a := e.1) (b := e.2) (c := y)
        ((List.Sublist.cons_cons _ (List.Sublist.cons_cons _ (List.singleton_sublist.2 hy2))).trans (List.sublist_append_right S _))
      rwa [one_mul] at this

/-- The region to the left of all edges of a proper convex polygon is its convex hull. -/
theorem region_eq_hull {l : List (K × K)} (h : StrictlyConvex l) (x : K × K) : LeftOfAll 0 l x ↔ x ∈ hull l := by
  obtain ⟨hlen, hs⟩ := h
  rw [leftOfAll_iff]
  constructor
  · intro hx
    match l, hlen with
    | p0 :: p1 :: t, hlen =>
      have ht : t ≠ [] := by rintro rfl; simp at hlen
      obtain ⟨t', z, rfl⟩ : ∃ t' z, t = t' ++ [z] := ⟨t.dropLast, t.getLast ht, (List.dropLast_append_getLast ht).symm⟩
      have hside : ∀ e ∈ edges (p0 :: p1 :: (t' ++ [z])), 0 ≤ side e.1 e.2 x := by
        intro e he
        have := hx e he
        rw [pos_eq] at this
        linarith
      have h1 : 0 ≤ side p0 p1 x := by
        refine hside (p0, p1) ?_
        simp [edges_cons]
      have h2 : 0 ≤ side z p0 x := by
        refine hside (z, p0) (consec_edges (S := p0 :: p1 :: t') (T := []) ?_)
        simp
      by_cases hz : 0 ≤ side p0 z x
      · -- x on the last edge
        have h3 : 0 < side p0 p1 z := hs _ _ _ (List.Sublist.cons_cons _ (List.Sublist.cons_cons _ (List.singleton_sublist.2 (by simp))))
        have h4 : side p0 z x = 0 := by
          have : side z p0 x = -side p0 z x := by simp only [side]; ring
          linarith
        -- the edge before the last one
        obtain ⟨S, w, hw⟩ : ∃ S w, p1 :: t' = S ++ [w] := ⟨(p1 :: t').dropLast, (p1 :: t').getLast (by simp), (List.dropLast_append_getLast (by simp)).symm⟩
        have hwm : w ∈ p1 :: t' := by rw [hw]; simp
        have h5 : 0 ≤ side w z x := by
          refine hside (w, z) (consec_edges (S := p0 :: S) (T := [p0]) ?_)
          have : p0 :: (p1 :: (t' ++ [z]) ++ [p0]) = p0 :: ((p1 :: t') ++ [z, p0]) := by simp
          rw [this, hw]; simp
        have h6 : 0 < side p0 w z := by
          refine hs _ _ _ (List.Sublist.cons_cons _ ?_)
          have : p1 :: (t' ++ [z]) = (p1 :: t') ++ [z] := rfl
          rw [this]
          exact List.Sublist.append (List.singleton_sublist.2 hwm) (List.Sublist.refl [z])
        -- x = combination of p0 and z
        have hsum : side p0 w x = side p0 w z - side w z x + side p0 z x := by simp only [side]; ring
        have h7 : 0 ≤ side p0 w x := by
          -- both p0 and z are to the left of the line from p0 to w; x is on the line through p0 and z
          rcases eq_or_ne w p1 with rfl | hne
          · exact h1
          · have h8 : 0 < side p0 p1 w := by
              refine hs _ _ _ (List.Sublist.cons_cons _ (List.Sublist.cons_cons _ (List.singleton_sublist.2 ?_)))
              have : w ∈ t' := by
                rcases List.mem_cons.1 hwm with h | h
                · exact absurd h hne
                · exact h
              simp [this]
            have e1 : side p0 p1 z * side p0 w x = side p0 w z * side p0 p1 x + side p0 z x * side p0 p1 w := by
              simp only [side]; ring
            rw [h4, zero_mul, add_zero] at e1
            have : 0 ≤ side p0 p1 z * side p0 w x := by rw [e1]; exact mul_nonneg h6.le h1
            exact nonneg_of_mul_nonneg_right this h3
        refine hull_segment (a := p0) (b := z) (mem_hull (by simp)) (mem_hull (by simp)) ?_
        refine ⟨side w z x / side p0 w z, side p0 w x / side p0 w z, div_nonneg h5 h6.le, div_nonneg h7 h6.le, ?_, ?_⟩
        · have := h6.ne'
          field_simp
          rw [hsum, h4]; ring
        · have n := h6.ne'
          have e : ∀ f : K, f * side p0 w z = f * (side w z x + side p0 w x) := by
            intro f; rw [hsum, h4]; ring
          ext
          · simp only [Prod.fst_add, Prod.smul_fst, smul_eq_mul]
            field_simp
            simp only [side] at h4 ⊢
            linear_combination w.1 * h4
          · simp only [Prod.snd_add, Prod.smul_snd, smul_eq_mul]
            field_simp
            simp only [side] at h4 ⊢
            linear_combination w.2 * h4
      · -- a triangle of the fan contains x
        obtain ⟨S, u, v, T, hST, hu, hv⟩ := chain_change (fun p => 0 ≤ side p0 p x) t' p1 z h1 hz
        have hv' : side p0 v x ≤ 0 := (not_le.1 hv).le
        have huv : 0 ≤ side u v x := by
          refine hside (u, v) (consec_edges (S := p0 :: S) (T := T ++ [p0]) ?_)
          have : p0 :: (p1 :: (t' ++ [z]) ++ [p0]) = p0 :: ((p1 :: (t' ++ [z])) ++ [p0]) := by simp
          rw [this, hST]; simp
        have h6 : 0 < side p0 u v := by
          refine hs _ _ _ (List.Sublist.cons_cons _ ?_)
          rw [hST]
          exact (List.Sublist.cons_cons u (List.Sublist.cons_cons v (List.nil_sublist T))).trans (List.sublist_append_right S _)
        have humem : u ∈ p1 :: (t' ++ [z]) := by rw [hST]; simp
        have hvmem : v ∈ p1 :: (t' ++ [z]) := by rw [hST]; simp
        have n := h6.ne'
        set d := side p0 u v with hd
        have hdd : d = side u v x + -side p0 v x + side p0 u x := by rw [hd]; simp only [side]; ring
        -- first a point of the segment u v
        rcases eq_or_ne (-side p0 v x + side p0 u x) 0 with h0 | h0
        · exfalso
          have := not_le.1 hv
          linarith
        · have hpos : 0 < -side p0 v x + side p0 u x := by have := not_le.1 hv; linarith
          refine hull_segment (a := p0) (b := (-side p0 v x / (-side p0 v x + side p0 u x)) • u + (side p0 u x / (-side p0 v x + side p0 u x)) • v)
            (mem_hull (by simp)) (hull_segment (a := u) (b := v) (mem_hull (List.mem_cons_of_mem _ humem)) (mem_hull (List.mem_cons_of_mem _ hvmem))
              ⟨_, _, div_nonneg (by linarith) hpos.le, div_nonneg hu hpos.le, by field_simp, rfl⟩) ?_
          refine ⟨side u v x / d, (-side p0 v x + side p0 u x) / d, div_nonneg huv h6.le, div_nonneg hpos.le h6.le, ?_, ?_⟩
          · rw [← add_div, ← add_assoc, ← hdd, div_self n]
          · have hx1 : side u v x * p0.1 + (-side p0 v x) * u.1 + side p0 u x * v.1 = d * x.1 := by
              rw [hd]; simp only [side]; ring
            have hx2 : side u v x * p0.2 + (-side p0 v x) * u.2 + side p0 u x * v.2 = d * x.2 := by
              rw [hd]; simp only [side]; ring
            ext
            · simp only [Prod.fst_add, Prod.smul_fst, smul_eq_mul]
              field_simp
              linear_combination hx1
            · simp only [Prod.snd_add, Prod.smul_snd, smul_eq_mul]
              field_simp
              linear_combination hx2
  · intro hx e he
    rw [neg_zero]
    refine hull_min (convex_le e.1 e.2 0) ?_ hx
    intro y hy
    simp only [Set.mem_setOf_eq]
    rw [pos_eq, neg_nonpos]
    exact edge_left (convex3_of fun a b c h => by rw [one_mul]; exact (hs a b c h).le) he hy

/-- C40, exactness without tolerance: the result is the part of the convex subject to the left of all edges of the clip
polygon. -/
theorem C40_exact {subject : List (K × K)} (hs : ConvexPosition subject ∨ ConvexPositionCW subject) (clip : List (K × K)) (x : K × K) :
    x ∈ hull (sutherlandHodgman 0 subject clip) ↔ x ∈ hull subject ∧ LeftOfAll 0 clip x := by
  constructor
  · intro hx
    have := C40_inside (le_refl (0 : K)) subject clip x hx
    rwa [neg_zero] at this
  · rintro ⟨h1, h2⟩
    exact C40_kept (le_refl 0) hs clip x h1 h2

/-- C40 for proper convex clip polygons: without tolerance the result is the intersection of the two polygons. -/
theorem C40_intersection {subject clip : List (K × K)} (hs : ConvexPosition subject ∨ ConvexPositionCW subject)
    (hc : StrictlyConvex clip) : hull (sutherlandHodgman 0 subject clip) = hull subject ∩ hull clip := by
  ext x
  rw [C40_exact hs, region_eq_hull hc]
  rfl

/-- C40 as it is used for cut sets: a triangle in any orientation (also a degenerate one) and a counter-clockwise
triangle. -/
theorem C40_triangles (a b c u v w : K × K) (h : 0 < side u v w) :
    hull (sutherlandHodgman 0 [a, b, c] [u, v, w]) = hull [a, b, c] ∩ hull [u, v, w] := by
  have trip : ∀ {a b c x y z : K × K}, [x, y, z].Sublist [a, b, c] → x = a ∧ y = b ∧ z = c := by
    intro a b c x y z hs
    have := hs.eq_of_length rfl
    simpa using this
  refine C40_intersection ?_ ⟨by simp, ?_⟩
  · rcases le_total 0 (side a b c) with hs | hs
    · refine Or.inl fun x y z hxyz => ?_
      obtain ⟨rfl, rfl, rfl⟩ := trip hxyz
      exact hs
    · refine Or.inr fun x y z hxyz => ?_
      obtain ⟨rfl, rfl, rfl⟩ := trip hxyz
      exact hs
  · intro x y z hxyz
    obtain ⟨rfl, rfl, rfl⟩ := trip hxyz
    exact h

theorem rotate_edges {ε : K} (q : (K × K) × (K × K)) {l : List (K × K)} (h : ∀ p ∈ l, pos q.1 q.2 p ≤ ε) (hε : 0 ≤ ε) :
    clipEdge ε l q = l.rotate 1 := by
  have h1 : ∀ e ∈ edges l, clipOne ε q.1 q.2 e = [e.2] := by
    intro e he
    have hm := List.of_mem_zip (a := e.1) (b := e.2) he
    have p1 := h e.1 hm.1
    have p2 := h e.2 (List.mem_rotate.1 hm.2)
    have n1 : ¬ pos q.1 q.2 e.1 > ε := not_lt.2 p1
    have n2 : ¬ pos q.1 q.2 e.2 > ε := not_lt.2 p2
    simp [clipOne, n1, n2]
  have h2 : clipEdge ε l q = (edges l).map Prod.snd := by
    rw [clipEdge, List.flatMap_congr h1, List.map_eq_flatMap]
  rw [h2, edges, List.map_snd_zip]
  simp

/-- C40: a subject that lies inside the clip polygon (up to the tolerance) is returned unchanged, except that the list
starts at another point. -/
theorem C40_unchanged {ε : K} (hε : 0 ≤ ε) {subject clip : List (K × K)} (h : ∀ p ∈ subject, LeftOfAll (-ε) clip p) :
    sutherlandHodgman ε subject clip = subject.rotate clip.length := by
  have key : ∀ (qs : List ((K × K) × (K × K))) (l : List (K × K)), (∀ p ∈ l, ∀ q ∈ qs, pos q.1 q.2 p ≤ ε) →
      qs.foldl (clipEdge ε) l = l.rotate qs.length := by
    intro qs
    induction qs with
    | nil => intro l _; simp
    | cons q qs ih =>
      intro l hl
      rw [List.foldl_cons, rotate_edges q (fun p hp => hl p hp q (by simp)) hε, ih _ fun p hp q' hq' => hl p (List.mem_rotate.1 hp) q' (by simp [hq']),
        List.rotate_rotate, List.length_cons, Nat.add_comm]
  have := key (edges clip) subject (fun p hp q hq => by
    have := (leftOfAll_iff _ _ _).1 (h p hp) q hq
    rwa [neg_neg] at this)
  rw [sutherlandHodgman, this]
  simp [edges]

/-- The result is in convex position again. -/
theorem C40_convex {ε : K} (hε : 0 ≤ ε) {subject : List (K × K)} (hs : ConvexPosition subject) (clip : List (K × K)) :
    ConvexPosition (sutherlandHodgman ε subject clip) := by
  intro a b c h
  have := convex3_triple (fold_convex hε (σ := 1) (edges clip) subject (convex3_of fun a b c h => by rw [one_mul]; exact hs a b c h)) h
  rwa [one_mul] at this

/-- Two triangles that overlap in a hexagon; a triangle inside another one; a clockwise subject. -/
example : sutherlandHodgman (0 : ℚ) [(0, 0), (6, 0), (3, 6)] [(0, 4), (3, -2), (6, 4)] =
    [(5, 2), (4, 4), (2, 4), (1, 2), (2, 0), (4, 0)] := by decide +kernel

example : sutherlandHodgman (0 : ℚ) [(1, 1), (2, 1), (1, 2)] [(0, 0), (6, 0), (0, 6)] = [(1, 1), (2, 1), (1, 2)] := by decide +kernel

example : (0 : ℚ) < side (0, 4) (3, -2) (6, 4) ∧ (0 : ℚ) < side (0, 0) (6, 0) (3, 6) := by decide +kernel

/-! ## C42 -/

/-- C42: the point is on both lines if they are not parallel. -/
theorem C42_on_both (p1 p2 q1 q2 : K × K) (h : (p1.1 - p2.1) * (q1.2 - q2.2) - (q1.1 - q2.1) * (p1.2 - p2.2) ≠ 0) :
    side p1 p2 (lineIntersection p1 p2 q1 q2) = 0 ∧ side q1 q2 (lineIntersection p1 p2 q1 q2) = 0 := by
  simp only [lineIntersection, side]
  obtain ⟨d, hd⟩ : ∃ d, d = (p1.1 - p2.1) * (q1.2 - q2.2) - (q1.1 - q2.1) * (p1.2 - p2.2) := ⟨_, rfl⟩
  rw [← hd] at h ⊢
  constructor
  · field_simp
    rw [hd]
    ring
  · field_simp
    rw [hd]
    ring

/-- C42: there is no other such point. -/
theorem C42_unique (p1 p2 q1 q2 x : K × K) (h : (p1.1 - p2.1) * (q1.2 - q2.2) - (q1.1 - q2.1) * (p1.2 - p2.2) ≠ 0)
    (h1 : side p1 p2 x = 0) (h2 : side q1 q2 x = 0) : x = lineIntersection p1 p2 q1 q2 := by
  simp only [side] at h1 h2
  ext
  · simp only [lineIntersection]
    rw [eq_div_iff h]
    linear_combination (q2.1 - q1.1) * h1 - (p2.1 - p1.1) * h2
  · simp only [lineIntersection]
    rw [eq_div_iff h]
    linear_combination (q2.2 - q1.2) * h1 - (p2.2 - p1.2) * h2

/-- In the clipping loop the lines are never parallel, so there is no division by zero. -/
theorem C42_no_division_by_zero {ε : K} (hε : 0 ≤ ε) (p1 p2 q1 q2 : K × K)
    (h : (pos q1 q2 p1 > ε ∧ pos q1 q2 p2 < -ε) ∨ (pos q1 q2 p1 < -ε ∧ pos q1 q2 p2 > ε)) :
    (p1.1 - p2.1) * (q1.2 - q2.2) - (q1.1 - q2.1) * (p1.2 - p2.2) ≠ 0 := by
  have hne := ins_ne hε h
  intro e
  apply hne
  simp only [pos]
  linear_combination -e

example : lineIntersection ((0, 0) : ℚ × ℚ) (2, 2) (0, 2) (2, 0) = (1, 1) := by decide +kernel

end Verif.Clip
