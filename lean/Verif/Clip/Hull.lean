import Verif.Clip.Lemmas

/-!
# Clipping by one edge
-/

namespace Verif.Clip

set_option linter.unusedSectionVars false

variable {K : Type} [Field K] [LinearOrder K] [IsStrictOrderedRing K]

/-! ## Clipping is subdivision and removal of the points outside -/

/-- The point inserted on an edge. -/
def ins (ε : K) (q1 q2 p s : K × K) : List (K × K) :=
  if (pos q1 q2 p > ε ∧ pos q1 q2 s < -ε) ∨ (pos q1 q2 p < -ε ∧ pos q1 q2 s > ε) then [lineIntersection p s q1 q2] else []

/-- All points, with the inserted ones. -/
def sub (ε : K) (q1 q2 : K × K) : K × K → List (K × K) → List (K × K)
  | _, [] => []
  | p, s :: r => ins ε q1 q2 p s ++ s :: sub ε q1 q2 s r

theorem ins_ne {ε : K} (hε : 0 ≤ ε) {q1 q2 p s : K × K}
    (h : (pos q1 q2 p > ε ∧ pos q1 q2 s < -ε) ∨ (pos q1 q2 p < -ε ∧ pos q1 q2 s > ε)) : pos q1 q2 p ≠ pos q1 q2 s := by
  rcases h with h | h
  · intro e; rw [e] at h; linarith
  · intro e; rw [e] at h; linarith

theorem ins_segment {ε : K} (hε : 0 ≤ ε) {q1 q2 p s c : K × K} (h : c ∈ ins ε q1 q2 p s) : c ∈ segment K p s ∧ pos q1 q2 c = 0 := by
  unfold ins at h
  split at h
  · rename_i hc
    rw [List.mem_singleton] at h
    subst h
    have hne := ins_ne hε hc
    rw [lineIntersection_cr hne]
    refine ⟨?_, pos_cr 0 hne⟩
    rcases hc with hc | hc
    · rw [cr_swap, segment_symm]
      exact cr_segment (by linarith) (by linarith)
    · exact cr_segment (by linarith) (by linarith)
  · simp at h

theorem clipOne_eq {ε : K} (hε : 0 ≤ ε) (q1 q2 : K × K) (e : (K × K) × (K × K)) :
    clipOne ε q1 q2 e = (ins ε q1 q2 e.1 e.2 ++ [e.2]).filter fun p => pos q1 q2 p ≤ ε := by
  rw [List.filter_append]
  have h1 : (ins ε q1 q2 e.1 e.2).filter (fun p => pos q1 q2 p ≤ ε) = ins ε q1 q2 e.1 e.2 := by
    rw [List.filter_eq_self]
    intro c hc
    rw [(ins_segment hε hc).2]
    simpa using hε
  rw [h1]
  unfold clipOne ins
  rcases lt_or_ge (pos q1 q2 e.2) (-ε) with hs | hs
  · have hs' : pos q1 q2 e.2 ≤ ε := by linarith
    have hs'' : ¬ pos q1 q2 e.2 > ε := by linarith
    by_cases hp : pos q1 q2 e.1 > ε
    · simp [hs, hs', hp]
    · simp [hs', hs'', hp]
  · have hs0 : ¬ pos q1 q2 e.2 < -ε := by linarith
    by_cases hs1 : pos q1 q2 e.2 > ε
    · have hs' : ¬ pos q1 q2 e.2 ≤ ε := by linarith
      by_cases hp : pos q1 q2 e.1 < -ε
      · simp [hs0, hs1, hs', hp]
      · have hp' : -ε ≤ pos q1 q2 e.1 := by linarith
        simp [hs0, hs1, hs', hp, hp']
    · have hs' : pos q1 q2 e.2 ≤ ε := by linarith
      simp [hs0, hs1, hs']

theorem edges_cons (p : K × K) (t : List (K × K)) : edges (p :: t) = (p :: t).zip (t ++ [p]) := by
  simp [edges]

theorem flatMap_sub {ε : K} (hε : 0 ≤ ε) (q1 q2 : K × K) (t : List (K × K)) : ∀ p z : K × K,
    ((p :: t).zip (t ++ [z])).flatMap (clipOne ε q1 q2) = (sub ε q1 q2 p (t ++ [z])).filter fun x => pos q1 q2 x ≤ ε := by
  induction t with
  | nil =>
    intro p z
    simp [sub, clipOne_eq hε]
  | cons s t ih =>
    intro p z
    rw [List.cons_append, List.zip_cons_cons, List.flatMap_cons, ih s z, clipOne_eq hε]
    simp only [sub]
    rw [← List.filter_append, List.append_assoc, List.singleton_append]

theorem clipEdge_cons {ε : K} (hε : 0 ≤ ε) (q : (K × K) × (K × K)) (p : K × K) (t : List (K × K)) :
    clipEdge ε (p :: t) q = (sub ε q.1 q.2 p (t ++ [p])).filter fun x => pos q.1 q.2 x ≤ ε := by
  rw [clipEdge, edges_cons, flatMap_sub hε]

theorem clipEdge_nil (ε : K) (q : (K × K) × (K × K)) : clipEdge ε [] q = [] := rfl

theorem sub_mem {ε : K} (hε : 0 ≤ ε) (q1 q2 : K × K) (r : List (K × K)) : ∀ p x, x ∈ sub ε q1 q2 p r → x ∈ hull (p :: r) := by
  induction r with
  | nil => intro p x hx; simp [sub] at hx
  | cons s r ih =>
    intro p x hx
    simp only [sub, List.mem_append, List.mem_cons] at hx
    rcases hx with hx | rfl | hx
    · exact hull_segment (mem_hull (by simp)) (mem_hull (by simp)) (ins_segment hε hx).1
    · exact mem_hull (by simp)
    · have := ih s x hx
      exact hull_min (convex_hull _) (fun y hy => mem_hull (List.mem_cons_of_mem _ hy)) this

theorem mem_sub {ε : K} {q1 q2 : K × K} {r : List (K × K)} : ∀ {p x : K × K}, x ∈ r → x ∈ sub ε q1 q2 p r := by
  induction r with
  | nil => intro p x hx; simp at hx
  | cons s r ih =>
    intro p x hx
    simp only [sub, List.mem_append, List.mem_cons]
    rcases List.mem_cons.1 hx with rfl | hx
    · exact Or.inr (Or.inl rfl)
    · exact Or.inr (Or.inr (ih hx))

theorem sub_convex {ε : K} (hε : 0 ≤ ε) (q1 q2 : K × K) {σ : K} (r : List (K × K)) : ∀ (A : List (K × K)) (p : K × K),
    Convex3 σ (A ++ p :: r) → Convex3 σ (A ++ p :: sub ε q1 q2 p r) := by
  induction r with
  | nil => intro A p h; simpa [sub] using h
  | cons s r ih =>
    intro A p h
    simp only [sub]
    have hins : ins ε q1 q2 p s = [] ∨ ∃ c, ins ε q1 q2 p s = [c] := by
      unfold ins; split
      · exact Or.inr ⟨_, rfl⟩
      · exact Or.inl rfl
    rcases hins with h0 | ⟨c, hc⟩
    · rw [h0, List.nil_append]
      have := ih (A ++ [p]) s (by simpa using h)
      simpa using this
    · rw [hc]
      have hseg := (ins_segment hε (c := c) (by rw [hc]; simp)).1
      have := ih (A ++ [p, c]) s (by simpa using convex3_insert hseg h)
      simpa using this

/-! ## What one clip edge does -/

/-- All points of the result are on the left, up to the tolerance. -/
theorem clipEdge_le {ε : K} (hε : 0 ≤ ε) (q : (K × K) × (K × K)) (l : List (K × K)) {x : K × K} (hx : x ∈ clipEdge ε l q) :
    pos q.1 q.2 x ≤ ε := by
  cases l with
  | nil => simp [clipEdge_nil] at hx
  | cons p t =>
    rw [clipEdge_cons hε, List.mem_filter] at hx
    simpa using hx.2

/-- Points that are on the left (up to the tolerance) stay. -/
theorem mem_clipEdge {ε : K} (hε : 0 ≤ ε) (q : (K × K) × (K × K)) {l : List (K × K)} {x : K × K} (hx : x ∈ l)
    (hp : pos q.1 q.2 x ≤ ε) : x ∈ clipEdge ε l q := by
  cases l with
  | nil => simp at hx
  | cons p t =>
    rw [clipEdge_cons hε, List.mem_filter]
    refine ⟨mem_sub ?_, by simpa using hp⟩
    rcases List.mem_cons.1 hx with rfl | hx
    · simp
    · simp [hx]

/-- Nothing outside the hull of the input appears. -/
theorem clipEdge_hull {ε : K} (hε : 0 ≤ ε) (q : (K × K) × (K × K)) (l : List (K × K)) : hull (clipEdge ε l q) ⊆ hull l := by
  refine hull_min (convex_hull _) ?_
  intro x hx
  cases l with
  | nil => simp [clipEdge_nil] at hx
  | cons p t =>
    rw [clipEdge_cons hε, List.mem_filter] at hx
    have := sub_mem hε _ _ _ _ _ hx.1
    refine hull_min (convex_hull _) (fun y hy => mem_hull ?_) this
    simp only [List.mem_cons, List.mem_append, List.not_mem_nil, or_false] at hy ⊢
    tauto

/-- Convex position is kept. -/
theorem clipEdge_convex {ε : K} (hε : 0 ≤ ε) (q : (K × K) × (K × K)) {σ : K} {l : List (K × K)} (h : Convex3 σ l) :
    Convex3 σ (clipEdge ε l q) := by
  cases l with
  | nil => simpa [clipEdge_nil] using h
  | cons p t =>
    rw [clipEdge_cons hε]
    have := sub_convex hε q.1 q.2 (t ++ [p]) [] p (convex3_close h)
    exact convex3_sublist List.filter_sublist this.2

/-- Edges that cross the level `-ε` do so in the hull of the result. -/
theorem cr_mem_hull {ε : K} (hε : 0 ≤ ε) {q : (K × K) × (K × K)} {l : List (K × K)} {u v : K × K} (hu : u ∈ l) (hv : v ∈ l)
    (h1 : pos q.1 q.2 u ≤ -ε) (h2 : -ε < pos q.1 q.2 v)
    (he : (u, v) ∈ edges l ∨ (v, u) ∈ edges l) : cr q.1 q.2 (-ε) u v ∈ hull (clipEdge ε l q) := by
  have hu' : u ∈ clipEdge ε l q := mem_clipEdge hε q hu (by linarith)
  rcases le_or_gt (pos q.1 q.2 v) ε with h3 | h3
  · exact hull_segment (mem_hull hu') (mem_hull (mem_clipEdge hε q hv h3)) (cr_segment h1 h2)
  rcases h1.eq_or_lt with h4 | h4
  · have : cr q.1 q.2 (-ε) u v = u := by
      have hd : pos q.1 q.2 v - pos q.1 q.2 u ≠ 0 := by rw [h4]; exact (by linarith : 0 < pos q.1 q.2 v - -ε).ne'
      unfold cr
      rw [← h4, sub_self, zero_div, zero_smul, div_self hd, one_smul, add_zero]
    rw [this]
    exact mem_hull hu'
  · have hw : cr q.1 q.2 0 u v ∈ clipEdge ε l q := by
      rw [clipEdge, List.mem_flatMap]
      rcases he with he | he
      · refine ⟨_, he, ?_⟩
        have h5 : ¬ pos q.1 q.2 u > ε := by linarith
        simp [clipOne, h4, h3, h5, lineIntersection_cr (show pos q.1 q.2 u ≠ pos q.1 q.2 v by intro e; linarith)]
      · refine ⟨_, he, ?_⟩
        simp [clipOne, h4, h3, lineIntersection_cr (show pos q.1 q.2 v ≠ pos q.1 q.2 u by intro e; linarith), cr_swap]
    refine hull_segment (mem_hull hu') (mem_hull hw) ?_
    have hp : 0 < -pos q.1 q.2 u := by linarith
    refine ⟨ε / -pos q.1 q.2 u, (-ε - pos q.1 q.2 u) / -pos q.1 q.2 u, div_nonneg hε hp.le, div_nonneg (by linarith) hp.le, ?_, ?_⟩
    · rw [← add_div, show ε + (-ε - pos q.1 q.2 u) = -pos q.1 q.2 u by ring, div_self hp.ne']
    · have n1 : pos q.1 q.2 u ≠ 0 := by linarith
      have n2 : pos q.1 q.2 v - pos q.1 q.2 u ≠ 0 := (by linarith : 0 < pos q.1 q.2 v - pos q.1 q.2 u).ne'
      unfold cr
      ext
      · simp only [Prod.fst_add, Prod.smul_fst, smul_eq_mul]
        field_simp
        ring
      · simp only [Prod.snd_add, Prod.smul_snd, smul_eq_mul]
        field_simp
        ring

/-! ## Edges -/

theorem edges_rotate (l : List (K × K)) (n : Nat) : edges (l.rotate n) = (edges l).rotate n := by
  unfold edges
  rw [List.rotate_rotate, Nat.add_comm, ← List.rotate_rotate]
  simp only [List.zip]
  rw [List.zipWith_rotate_distrib _ _ _ _ (by simp)]

theorem edges_append_comm (A B : List (K × K)) (e : (K × K) × (K × K)) : e ∈ edges (B ++ A) ↔ e ∈ edges (A ++ B) := by
  have : B ++ A = (A ++ B).rotate A.length := by rw [List.rotate_append_length_eq]
  rw [this, edges_rotate, List.mem_rotate]

theorem consec_zip (S T : List (K × K)) (u v : K × K) :
    (u, v) ∈ (S ++ u :: v :: T).zip (S ++ u :: v :: T).tail := by
  induction S with
  | nil => simp
  | cons a S ih =>
    cases S with
    | nil => simp
    | cons b S =>
      simp only [List.cons_append, List.tail_cons, List.zip_cons_cons, List.mem_cons] at ih ⊢
      exact Or.inr ih

theorem zip_extend (t : List (K × K)) : ∀ p z w : K × K, (p :: t).zip (t ++ [z]) = ((p :: t) ++ [w]).zip (t ++ [z]) := by
  induction t with
  | nil => intro p z w; simp
  | cons s t ih =>
    intro p z w
    have := ih s z w
    simp only [List.cons_append, List.zip_cons_cons] at this ⊢
    rw [this]

/-- Consecutive points of the closed chain are edges. -/
theorem consec_edges {y : K × K} {R S T : List (K × K)} {u v : K × K} (h : y :: (R ++ [y]) = S ++ u :: v :: T) :
    (u, v) ∈ edges (y :: R) := by
  rw [edges_cons, zip_extend _ _ _ y]
  have := consec_zip S T u v
  rw [← h] at this
  simpa using this

/-- Somewhere on a chain from a point with to a point without a property, the property is lost. -/
theorem chain_change {α : Type} (P : α → Prop) (B : List α) : ∀ y z, P y → ¬ P z →
    ∃ S u v T, y :: (B ++ [z]) = S ++ u :: v :: T ∧ P u ∧ ¬ P v := by
  induction B with
  | nil => intro y z hy hz; exact ⟨[], y, z, [], rfl, hy, hz⟩
  | cons b B ih =>
    intro y z hy hz
    by_cases hb : P b
    · obtain ⟨S, u, v, T, h, h1, h2⟩ := ih b z hb hz
      exact ⟨y :: S, u, v, T, by rw [List.cons_append, h]; rfl, h1, h2⟩
    · exact ⟨[], y, b, B ++ [z], by simp, hy, hb⟩

/-- The part of the hull below the level is kept by the clipping, if the points are in convex position. -/
theorem clipEdge_lower {ε : K} (hε : 0 ≤ ε) (q : (K × K) × (K × K)) {σ : K} (hσ : σ ≠ 0) {l : List (K × K)} (hc : Convex3 σ l)
    {x : K × K} (hx : x ∈ hull l) (hp : pos q.1 q.2 x ≤ -ε) : x ∈ hull (clipEdge ε l q) := by
  refine hull_below (convex_hull _) (fun y hy h => mem_hull (mem_clipEdge hε q hy (by linarith))) ?_ hx hp
  intro y hy z hz h1 h2
  obtain ⟨A, T0, rfl⟩ := List.append_of_mem hy
  -- start the polygon at y
  have hc1 : Convex3 σ (y :: (T0 ++ A)) := by
    have := convex3_rotate hc
    simpa using this
  have hedge : ∀ e, e ∈ edges (y :: (T0 ++ A)) → e ∈ edges (A ++ y :: T0) := by
    intro e he
    rw [← List.cons_append] at he
    exact (edges_append_comm A (y :: T0) e).1 he
  have hzy : z ≠ y := by rintro rfl; linarith
  have hz' : z ∈ T0 ++ A := by
    rw [List.mem_append, List.mem_cons] at hz
    rw [List.mem_append]
    tauto
  have hmem : ∀ p, p ∈ y :: (T0 ++ A) → p ∈ A ++ y :: T0 := by
    intro p
    simp only [List.mem_cons, List.mem_append]
    tauto
  obtain ⟨B, C, hBC⟩ := List.append_of_mem hz'
  rw [hBC] at hc1 hedge hmem
  have hne : pos q.1 q.2 y ≠ pos q.1 q.2 z := by intro e; linarith
  -- the way from y to z
  obtain ⟨S, u, v, T, hS, hu, hv⟩ := chain_change (fun p => pos q.1 q.2 p ≤ -ε) B y z h1 (not_le.2 h2)
  have hv' : -ε < pos q.1 q.2 v := not_le.1 hv
  have humem : u ∈ y :: (B ++ [z]) := by rw [hS]; simp
  have hvmem : v ∈ y :: (B ++ [z]) := by rw [hS]; simp
  have hin : ∀ p, p ∈ y :: (B ++ [z]) → p ∈ y :: (B ++ z :: C) := by
    intro p; simp only [List.mem_cons, List.mem_append, List.not_mem_nil, or_false]; tauto
  have huv : (u, v) ∈ edges (y :: (B ++ z :: C)) := by
    refine consec_edges (S := S) (T := T ++ (C ++ [y])) ?_
    have e1 : y :: ((B ++ z :: C) ++ [y]) = (y :: (B ++ [z])) ++ (C ++ [y]) := by simp
    rw [e1, hS]; simp
  have ha := cr_mem_hull hε (hmem u (hin u humem)) (hmem v (hin v hvmem)) hu hv' (Or.inl (hedge _ huv))
  -- the way back
  obtain ⟨S', u', v', T', hS', hu', hv2⟩ := chain_change (fun p => ¬ pos q.1 q.2 p ≤ -ε) C z y (not_le.2 h2) (not_not.2 h1)
  have hv2' : pos q.1 q.2 v' ≤ -ε := not_not.1 hv2
  have hu2 : -ε < pos q.1 q.2 u' := not_le.1 hu'
  have humem' : u' ∈ z :: (C ++ [y]) := by rw [hS']; simp
  have hvmem' : v' ∈ z :: (C ++ [y]) := by rw [hS']; simp
  have hin' : ∀ p, p ∈ z :: (C ++ [y]) → p ∈ y :: (B ++ z :: C) := by
    intro p; simp only [List.mem_cons, List.mem_append, List.not_mem_nil, or_false]; tauto
  have huv' : (u', v') ∈ edges (y :: (B ++ z :: C)) := by
    refine consec_edges (S := y :: B ++ S') (T := T') ?_
    have e1 : y :: ((B ++ z :: C) ++ [y]) = (y :: B) ++ (z :: (C ++ [y])) := by simp
    rw [e1, hS']; simp
  have hb := cr_mem_hull hε (hmem v' (hin' v' hvmem')) (hmem u' (hin' u' humem')) hv2' hu2 (Or.inr (hedge _ huv'))
  -- the sides
  have side1 : ∀ p, p ∈ y :: (B ++ [z]) → σ * side y z p ≤ 0 := by
    intro p hp
    simp only [List.mem_cons, List.mem_append, List.not_mem_nil, or_false] at hp
    rcases hp with rfl | hp | rfl
    · rw [side_self3]; simp
    · have := convex3_triple hc1 (a := y) (b := p) (c := z) (List.Sublist.cons_cons _ (List.Sublist.append
        (List.singleton_sublist.2 hp) (List.singleton_sublist.2 (by simp)) (l₁ := [p]) (l₂ := B) (r₁ := [z]) (r₂ := z :: C)))
      rw [side_swap]
      linarith
    · rw [side_self2]; simp
  have side2 : ∀ p, p ∈ z :: (C ++ [y]) → 0 ≤ σ * side y z p := by
    intro p hp
    simp only [List.mem_cons, List.mem_append, List.not_mem_nil, or_false] at hp
    rcases hp with rfl | hp | rfl
    · rw [side_self2]; simp
    · refine convex3_triple hc1 (List.Sublist.cons_cons _ ?_)
      exact (List.Sublist.cons_cons z (List.singleton_sublist.2 hp)).trans (List.sublist_append_right B (z :: C))
    · rw [side_self3]; simp
  have sa : σ * side y z (cr q.1 q.2 (-ε) u v) ≤ 0 := by
    obtain ⟨a, b, ha, hb, hab, he⟩ := cr_segment hu hv'
    rw [← he, side_affine3 hab]
    nlinarith [mul_nonneg ha (neg_nonneg.2 (side1 u humem)), mul_nonneg hb (neg_nonneg.2 (side1 v hvmem))]
  have sb : 0 ≤ σ * side y z (cr q.1 q.2 (-ε) v' u') := by
    obtain ⟨a, b, ha, hb, hab, he⟩ := cr_segment hv2' hu2
    rw [← he, side_affine3 hab]
    nlinarith [mul_nonneg ha (side2 v' hvmem'), mul_nonneg hb (side2 u' humem')]
  have pa : pos q.1 q.2 (cr q.1 q.2 (-ε) u v) = -ε := pos_cr _ (by intro e; linarith)
  have pb : pos q.1 q.2 (cr q.1 q.2 (-ε) v' u') = -ε := pos_cr _ (by intro e; linarith)
  rcases lt_or_gt_of_ne hσ with hneg | hpos
  · refine hull_segment hb ha (cr_between hne pb pa ?_ ?_)
    · by_contra h
      nlinarith [mul_pos (neg_pos.2 hneg) (not_le.1 h)]
    · by_contra h
      nlinarith [mul_pos (neg_pos.2 hneg) (neg_pos.2 (not_le.1 h))]
  · refine hull_segment ha hb (cr_between hne pa pb ?_ ?_)
    · by_contra h
      nlinarith [mul_pos hpos (not_le.1 h)]
    · by_contra h
      nlinarith [mul_pos hpos (neg_pos.2 (not_le.1 h))]

end Verif.Clip
