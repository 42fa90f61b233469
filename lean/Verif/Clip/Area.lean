import Verif.Clip.Props

/-!
# C41: areas
-/

namespace Verif.Clip

set_option linter.unusedSectionVars false

variable {K : Type} [Field K] [LinearOrder K] [IsStrictOrderedRing K]

/-- Cross product. -/
def cross (a b : K × K) : K := a.1 * b.2 - b.1 * a.2

/-- Sum of cross products along an open path. -/
def path : List (K × K) → K
  | [] => 0
  | [_] => 0
  | a :: b :: l => cross a b + path (b :: l)

/-- Twice the area of a closed polygon. -/
def area2 : List (K × K) → K
  | [] => 0
  | p :: t => path (p :: (t ++ [p]))

theorem path_append (A B : List (K × K)) (x : K × K) : path (A ++ x :: B) = path (A ++ [x]) + path (x :: B) := by
  induction A with
  | nil => simp [path]
  | cons a A ih =>
    cases A with
    | nil => simp [path]
    | cons b A =>
      simp only [List.cons_append, path] at ih ⊢
      rw [ih]; ring

theorem foldl_path (t : List (K × K)) : ∀ (p z : K × K) (a : K),
    ((p :: t).zip (t ++ [z])).foldl (fun (area : K) e => area + e.1.1 * e.2.2 - e.2.1 * e.1.2) a = a + path (p :: (t ++ [z])) := by
  induction t with
  | nil => intro p z a; simp [path, cross]; ring
  | cons s t ih =>
    intro p z a
    rw [List.cons_append, List.zip_cons_cons, List.foldl_cons, ih]
    simp only [path, cross, List.cons_append]
    ring

theorem polygonArea_eq (l : List (K × K)) : polygonArea l = area2 l / 2 := by
  unfold polygonArea
  split
  · rename_i h
    match l with
    | [] => simp [area2]
    | [a] => simp [area2, path, cross]
    | [a, b] => simp [area2, path, cross]
    | _ :: _ :: _ :: _ => simp at h; omega
  · rename_i h
    match l with
    | [] => simp at h
    | p :: t =>
      rw [edges_cons, foldl_path, area2]
      ring

theorem area2_rotate1 (p : K × K) (t : List (K × K)) : area2 (t ++ [p]) = area2 (p :: t) := by
  cases t with
  | nil => rfl
  | cons s t =>
    have h := path_append (s :: t) [s] p
    have e : s :: (t ++ [p] ++ [s]) = s :: t ++ p :: [s] := by simp
    simp only [List.cons_append, area2]
    rw [e, h]
    simp only [path, List.cons_append]
    ring

theorem area2_comm (A B : List (K × K)) : area2 (B ++ A) = area2 (A ++ B) := by
  induction A generalizing B with
  | nil => simp
  | cons a A ih =>
    have := ih (B ++ [a])
    rw [List.append_assoc, List.singleton_append] at this
    rw [this, ← List.append_assoc, area2_rotate1]; rfl

theorem path_reverse (l : List (K × K)) : path l.reverse = -path l := by
  induction l with
  | nil => simp [path]
  | cons a l ih =>
    cases l with
    | nil => simp [path]
    | cons b l =>
      have e : (a :: b :: l).reverse = l.reverse ++ b :: [a] := by simp
      rw [e, path_append]
      rw [List.reverse_cons] at ih
      rw [ih]
      simp only [path, cross]
      ring

/-! ## C41 -/

/-- C41: for a triangle it is the signed area. -/
theorem C41_triangle (a b c : K × K) : polygonArea [a, b, c] = side a b c / 2 := by
  rw [polygonArea_eq]
  simp only [area2, path, cross, side, List.cons_append, List.nil_append]
  ring

/-- C41: the area does not depend on where the list starts. -/
theorem C41_rotate (l : List (K × K)) (n : Nat) : polygonArea (l.rotate n) = polygonArea l := by
  rw [polygonArea_eq, polygonArea_eq, List.rotate_eq_drop_append_take_mod, area2_comm, List.take_append_drop]

/-- C41: reversal changes the sign. -/
theorem C41_reverse (l : List (K × K)) : polygonArea l.reverse = -polygonArea l := by
  rw [polygonArea_eq, polygonArea_eq]
  cases l with
  | nil => simp [area2]
  | cons p t =>
    rw [List.reverse_cons, area2_rotate1, area2, area2]
    have : p :: (t.reverse ++ [p]) = (p :: (t ++ [p])).reverse := by simp
    rw [this, path_reverse]
    ring

theorem path_translate (v : K × K) (l : List (K × K)) : ∀ a z : K × K,
    path ((a :: (l ++ [z])).map (· + v)) = path (a :: (l ++ [z])) + (v.1 * (z.2 - a.2) - v.2 * (z.1 - a.1)) := by
  induction l with
  | nil => intro a z; simp [path, cross]; ring
  | cons b l ih =>
    intro a z
    have := ih b z
    simp only [List.map_cons, List.cons_append, path] at this ⊢
    rw [this]
    simp only [cross, Prod.fst_add, Prod.snd_add]
    ring

/-- C41: translation does not change the area. -/
theorem C41_translate (v : K × K) (l : List (K × K)) : polygonArea (l.map (· + v)) = polygonArea l := by
  rw [polygonArea_eq, polygonArea_eq]
  cases l with
  | nil => rfl
  | cons p t =>
    have := path_translate v t p p
    simp only [List.map_cons, List.map_append, List.map_nil, area2] at this ⊢
    rw [this]
    ring

/-- C41: cutting along a chord from `u` to `v` gives two polygons whose areas add up. -/
theorem C41_chord (u v : K × K) (B C : List (K × K)) :
    polygonArea (u :: (B ++ v :: C)) = polygonArea (u :: (B ++ [v])) + polygonArea (u :: v :: C) := by
  rw [polygonArea_eq, polygonArea_eq, polygonArea_eq]
  simp only [area2]
  have e1 : u :: (B ++ v :: C ++ [u]) = (u :: B) ++ v :: (C ++ [u]) := by simp
  have e2 : u :: (B ++ [v] ++ [u]) = (u :: B) ++ v :: [u] := by simp
  rw [e1, e2, path_append, path_append (u :: B) [u]]
  simp only [path, cross, List.cons_append]
  ring

/-- Signed areas of the triangles of a fan. -/
def signedFan (l : List (K × K)) : K := ((fan l).map fun t => side t.1 t.2.1 t.2.2 / 2).sum

theorem fan_path (p : K × K) (t : List (K × K)) : ∀ s, (((s :: t).zip t).map fun e => side p e.1 e.2).sum = cross p s + path (s :: (t ++ [p])) := by
  induction t with
  | nil => intro s; simp [path, cross]
  | cons r t ih =>
    intro s
    rw [List.zip_cons_cons, List.map_cons, List.sum_cons, ih r]
    simp only [path, side, cross, List.cons_append]
    ring

theorem sum_half (l : List K) : (l.map fun x => x / 2).sum = l.sum / 2 := by
  induction l with
  | nil => simp
  | cons a l ih => simp only [List.map_cons, List.sum_cons, ih]; ring

/-- C41: the triangles of the fan over a polygon have signed areas that add up to the area of the polygon. -/
theorem C41_fan (l : List (K × K)) : signedFan l = polygonArea l := by
  rw [polygonArea_eq]
  unfold signedFan
  match l with
  | [] => simp [fan, area2]
  | [p] => simp [fan, area2, path, cross]
  | p :: s :: t =>
    simp only [fan, List.tail_cons, List.map_map, Function.comp_def]
    have := fan_path p t s
    have e : (((s :: t).zip t).map fun e => side p e.1 e.2 / 2) = ((((s :: t).zip t).map fun e => side p e.1 e.2).map fun x => x / 2) := by
      simp
    rw [e, sum_half, this]
    simp [area2, path]

theorem fan_sign {σ : K} {p : K × K} {l : List (K × K)} (h : Convex3 σ (p :: l)) :
    ∀ t ∈ fan (p :: l), 0 ≤ σ * side t.1 t.2.1 t.2.2 := by
  intro t ht
  simp only [fan, List.mem_map] at ht
  obtain ⟨e, he, rfl⟩ := ht
  obtain ⟨S, T, hST⟩ := zip_consec (u := e.1) (v := e.2) he
  refine convex3_triple h (List.Sublist.cons_cons _ ?_)
  rw [hST]
  exact (List.Sublist.cons_cons _ (List.Sublist.cons_cons _ (List.nil_sublist _))).trans (List.sublist_append_right S _)

/-- C41: the volumes of the triangles of a fan over a polygon in convex position add up to the absolute value of its
area. -/
theorem C41_fan_volume {l : List (K × K)} (h : ConvexPosition l ∨ ConvexPositionCW l) : ((fan l).map volume).sum = |polygonArea l| := by
  have hvol : ∀ t : (K × K) × (K × K) × (K × K), volume t = |side t.1 t.2.1 t.2.2| / 2 := fun t => rfl
  rw [← C41_fan]
  unfold signedFan
  have key : ∀ (fs : List ((K × K) × (K × K) × (K × K))), ((∀ t ∈ fs, 0 ≤ side t.1 t.2.1 t.2.2) → (fs.map volume).sum = (fs.map fun t => side t.1 t.2.1 t.2.2 / 2).sum ∧ 0 ≤ (fs.map volume).sum) ∧
      ((∀ t ∈ fs, side t.1 t.2.1 t.2.2 ≤ 0) → (fs.map volume).sum = -(fs.map fun t => side t.1 t.2.1 t.2.2 / 2).sum ∧ 0 ≤ (fs.map volume).sum) := by
    intro fs
    induction fs with
    | nil => simp
    | cons t fs ih =>
      constructor
      · intro hf
        obtain ⟨h1, h2⟩ := ih.1 fun t' ht' => hf t' (by simp [ht'])
        have h3 := hf t (by simp)
        have h4 : volume t = side t.1 t.2.1 t.2.2 / 2 := by rw [hvol, abs_of_nonneg h3]
        simp only [List.map_cons, List.sum_cons, h1, h4]
        rw [h1] at h2
        exact ⟨trivial, by linarith⟩
      · intro hf
        obtain ⟨h1, h2⟩ := ih.2 fun t' ht' => hf t' (by simp [ht'])
        have h3 := hf t (by simp)
        have h4 : volume t = -(side t.1 t.2.1 t.2.2 / 2) := by rw [hvol, abs_of_nonpos h3]; ring
        simp only [List.map_cons, List.sum_cons, h1, h4]
        rw [h1] at h2
        exact ⟨by ring, by linarith⟩
  cases l with
  | nil => simp [fan]
  | cons p l =>
    rcases h with h | h
    · have hs : ∀ t ∈ fan (p :: l), 0 ≤ side t.1 t.2.1 t.2.2 := by
        intro t ht
        have := fan_sign (σ := 1) (convex3_of fun a b c hs => by rw [one_mul]; exact h a b c hs) t ht
        rwa [one_mul] at this
      obtain ⟨h1, h2⟩ := (key _).1 hs
      rw [h1] at h2 ⊢
      exact (abs_of_nonneg h2).symm
    · have hs : ∀ t ∈ fan (p :: l), side t.1 t.2.1 t.2.2 ≤ 0 := by
        intro t ht
        have := fan_sign (σ := -1) (convex3_of fun a b c hs => by have := h a b c hs; linarith) t ht
        linarith
      obtain ⟨h1, h2⟩ := (key _).2 hs
      rw [h1] at h2 ⊢
      exact (abs_of_nonpos (by linarith)).symm

/-! ## Cutting along a line -/

/-- Path with cross products around the point `q`. -/
def pathAt (q : K × K) : List (K × K) → K
  | [] => 0
  | [_] => 0
  | a :: b :: l => side q a b + pathAt q (b :: l)

theorem pathAt_eq (q : K × K) (l : List (K × K)) : ∀ a z : K × K,
    pathAt q (a :: (l ++ [z])) = path (a :: (l ++ [z])) + (cross q a + cross z q) := by
  induction l with
  | nil => intro a z; simp only [List.nil_append, pathAt, path, side, cross]; ring
  | cons b l ih =>
    intro a z
    have := ih b z
    simp only [List.cons_append, pathAt, path] at this ⊢
    rw [this]
    simp only [side, cross]
    ring

theorem area2_pathAt (q p : K × K) (t : List (K × K)) : area2 (p :: t) = pathAt q (p :: (t ++ [p])) := by
  rw [pathAt_eq, area2]
  simp only [cross]; ring

/-- Two points on a line through `q1` have no area with `q1`. -/
theorem side_on_line {q1 q2 a b : K × K} (hq : q1 ≠ q2) (ha : pos q1 q2 a = 0) (hb : pos q1 q2 b = 0) : side q1 a b = 0 := by
  have e1 : (q2.1 - q1.1) * side q1 a b = 0 := by
    simp only [pos, side] at *
    linear_combination (b.1 - q1.1) * ha - (a.1 - q1.1) * hb
  have e2 : (q2.2 - q1.2) * side q1 a b = 0 := by
    simp only [pos, side] at *
    linear_combination (b.2 - q1.2) * ha - (a.2 - q1.2) * hb
  by_contra hne
  apply hq
  ext
  · exact (sub_eq_zero.1 ((mul_eq_zero.1 e1).resolve_right hne)).symm
  · exact (sub_eq_zero.1 ((mul_eq_zero.1 e2).resolve_right hne)).symm

/-- No two consecutive points are strictly on different sides. -/
def NC (q1 q2 : K × K) : K × K → List (K × K) → Prop
  | _, [] => True
  | c, d :: r => ¬ (pos q1 q2 c < 0 ∧ 0 < pos q1 q2 d) ∧ ¬ (0 < pos q1 q2 c ∧ pos q1 q2 d < 0) ∧ NC q1 q2 d r

theorem nc_append {q1 q2 : K × K} (A B : List (K × K)) (d : K × K) : ∀ c,
    NC q1 q2 c (A ++ d :: B) ↔ NC q1 q2 c (A ++ [d]) ∧ NC q1 q2 d B := by
  induction A with
  | nil => intro c; simp [NC]; tauto
  | cons a A ih =>
    intro c
    simp only [List.cons_append, NC, ih a]
    tauto

theorem sweep {q1 q2 : K × K} (hq : q1 ≠ q2) (r : List (K × K)) : ∀ a b c : K × K, NC q1 q2 c r →
    ((pos q1 q2 c < 0 ∧ a = c ∧ pos q1 q2 b = 0) ∨ (0 < pos q1 q2 c ∧ b = c ∧ pos q1 q2 a = 0) ∨ (pos q1 q2 c = 0 ∧ a = c ∧ b = c)) →
    pathAt q1 (a :: r.filter fun x => decide (pos q1 q2 x ≤ 0)) + pathAt q1 (b :: r.filter fun x => decide (0 ≤ pos q1 q2 x)) =
      pathAt q1 (c :: r) := by
  induction r with
  | nil => intro a b c _ _; simp [pathAt]
  | cons d r ih =>
    intro a b c hnc hs
    obtain ⟨hn1, hn2, hn3⟩ := hnc
    rcases lt_trichotomy (pos q1 q2 d) 0 with hd | hd | hd
    · have k1 : decide (pos q1 q2 d ≤ 0) = true := by simpa using hd.le
      have k2 : ¬ decide (0 ≤ pos q1 q2 d) = true := by simpa using hd
      rw [List.filter_cons_of_pos (p := fun x => decide (pos q1 q2 x ≤ 0)) k1, List.filter_cons_of_neg (p := fun x => decide (0 ≤ pos q1 q2 x)) k2]
      have hac : a = c ∧ pos q1 q2 b = 0 := by
        rcases hs with h | h | h
        · exact h.2
        · exact absurd ⟨h.1, hd⟩ hn2
        · exact ⟨h.2.1, by rw [h.2.2]; exact h.1⟩
      have := ih d b d hn3 (Or.inl ⟨hd, rfl, hac.2⟩)
      simp only [pathAt]
      rw [← this, hac.1]
      ring
    · have k1 : decide (pos q1 q2 d ≤ 0) = true := by simp [hd]
      have k2 : decide (0 ≤ pos q1 q2 d) = true := by simp [hd]
      rw [List.filter_cons_of_pos (p := fun x => decide (pos q1 q2 x ≤ 0)) k1, List.filter_cons_of_pos (p := fun x => decide (0 ≤ pos q1 q2 x)) k2]
      have := ih d d d hn3 (Or.inr (Or.inr ⟨hd, rfl, rfl⟩))
      simp only [pathAt]
      rw [← this]
      rcases hs with h | h | h
      · rw [side_on_line hq h.2.2 hd, h.2.1]; ring
      · rw [side_on_line hq h.2.2 hd, h.2.1]; ring
      · rw [h.2.1, h.2.2, side_on_line hq h.1 hd]; ring
    · have k1 : ¬ decide (pos q1 q2 d ≤ 0) = true := by simpa using hd
      have k2 : decide (0 ≤ pos q1 q2 d) = true := by simpa using hd.le
      rw [List.filter_cons_of_neg (p := fun x => decide (pos q1 q2 x ≤ 0)) k1, List.filter_cons_of_pos (p := fun x => decide (0 ≤ pos q1 q2 x)) k2]
      have hac : b = c ∧ pos q1 q2 a = 0 := by
        rcases hs with h | h | h
        · exact absurd ⟨h.1, hd⟩ hn1
        · exact h.2
        · exact ⟨h.2.2, by rw [h.2.1]; exact h.1⟩
      have := ih a d d hn3 (Or.inr (Or.inl ⟨hd, rfl, hac.2⟩))
      simp only [pathAt]
      rw [← this, hac.1]
      ring

theorem nc_same {q1 q2 : K × K} (r : List (K × K)) : ∀ c, NC q1 q2 c r → (∀ x ∈ c :: r, pos q1 q2 x ≠ 0) →
    (∀ x ∈ c :: r, pos q1 q2 x < 0) ∨ (∀ x ∈ c :: r, 0 < pos q1 q2 x) := by
  induction r with
  | nil =>
    intro c _ h
    rcases lt_or_gt_of_ne (h c (by simp)) with h | h
    · exact Or.inl (by simpa using h)
    · exact Or.inr (by simpa using h)
  | cons d r ih =>
    intro c hnc h
    rcases ih d hnc.2.2 (fun x hx => h x (by simp [List.mem_cons.1 hx])) with h1 | h1
    · refine Or.inl fun x hx => ?_
      rcases List.mem_cons.1 hx with rfl | hx
      · rcases lt_or_gt_of_ne (h x (by simp)) with h2 | h2
        · exact h2
        · exact absurd ⟨h2, h1 d (by simp)⟩ hnc.2.1
      · exact h1 x hx
    · refine Or.inr fun x hx => ?_
      rcases List.mem_cons.1 hx with rfl | hx
      · rcases lt_or_gt_of_ne (h x (by simp)) with h2 | h2
        · exact absurd ⟨h2, h1 d (by simp)⟩ hnc.1
        · exact h2
      · exact h1 x hx

/-- A closed polygon without strict crossings is the sum of its two parts. -/
theorem split_nc {q1 q2 : K × K} (hq : q1 ≠ q2) {p : K × K} {M : List (K × K)} (h : NC q1 q2 p (M ++ [p])) :
    area2 ((M ++ [p]).filter fun x => decide (pos q1 q2 x ≤ 0)) + area2 ((M ++ [p]).filter fun x => decide (0 ≤ pos q1 q2 x)) = area2 (M ++ [p]) := by
  by_cases h0 : ∃ x ∈ M ++ [p], pos q1 q2 x = 0
  · obtain ⟨x, hx, hx0⟩ := h0
    obtain ⟨A, B, hAB⟩ := List.append_of_mem hx
    have hnc : NC q1 q2 x ((B ++ A) ++ [x]) := by
      rw [hAB] at h
      have h2 := (nc_append A B x p).1 h
      rcases List.eq_nil_or_concat B with rfl | ⟨B', b, rfl⟩
      · have : x = p := by
          have := congrArg List.getLast? hAB
          simpa using this.symm
        subst this
        simpa using h2.1
      · have : b = p := by
          have := congrArg List.getLast? hAB
          simp only [List.concat_eq_append] at this
          rw [← List.cons_append, ← List.append_assoc, List.getLast?_concat, List.getLast?_concat] at this
          simpa using this.symm
        subst this
        simp only [List.concat_eq_append] at h2 ⊢
        have e : B' ++ [b] ++ A ++ [x] = B' ++ b :: (A ++ [x]) := by simp
        rw [e, nc_append]
        exact ⟨h2.2, h2.1⟩
    have key := sweep hq ((B ++ A) ++ [x]) x x x hnc (Or.inr (Or.inr ⟨hx0, rfl, rfl⟩))
    have k1 : decide (pos q1 q2 x ≤ 0) = true := by simp [hx0]
    have k2 : decide (0 ≤ pos q1 q2 x) = true := by simp [hx0]
    rw [hAB, List.filter_append, List.filter_append, List.filter_cons_of_pos (p := fun x => decide (pos q1 q2 x ≤ 0)) k1, List.filter_cons_of_pos (p := fun x => decide (0 ≤ pos q1 q2 x)) k2,
      ← area2_comm, ← area2_comm (A.filter _), ← area2_comm A]
    simp only [List.cons_append]
    rw [area2_pathAt q1, area2_pathAt q1, area2_pathAt q1]
    rw [List.filter_append, List.filter_append, List.filter_append, List.filter_append] at key
    rw [List.filter_cons_of_pos (p := fun x => decide (pos q1 q2 x ≤ 0)) k1, List.filter_cons_of_pos (p := fun x => decide (0 ≤ pos q1 q2 x)) k2] at key
    simpa using key
  · push Not at h0
    have hp := h0 p (by simp)
    have hall : ∀ x ∈ p :: (M ++ [p]), pos q1 q2 x ≠ 0 := by
      intro x hx
      rcases List.mem_cons.1 hx with rfl | hx
      · exact hp
      · exact h0 x hx
    rcases nc_same _ p h hall with h1 | h1
    · have e1 : ((M ++ [p]).filter fun x => decide (pos q1 q2 x ≤ 0)) = M ++ [p] := by
        rw [List.filter_eq_self]
        intro x hx
        simpa using (h1 x (List.mem_cons_of_mem _ hx)).le
      have e2 : ((M ++ [p]).filter fun x => decide (0 ≤ pos q1 q2 x)) = [] := by
        rw [List.filter_eq_nil_iff]
        intro x hx
        simpa using h1 x (List.mem_cons_of_mem _ hx)
      rw [e1, e2]; simp [area2]
    · have e1 : ((M ++ [p]).filter fun x => decide (pos q1 q2 x ≤ 0)) = [] := by
        rw [List.filter_eq_nil_iff]
        intro x hx
        simpa using h1 x (List.mem_cons_of_mem _ hx)
      have e2 : ((M ++ [p]).filter fun x => decide (0 ≤ pos q1 q2 x)) = M ++ [p] := by
        rw [List.filter_eq_self]
        intro x hx
        simpa using (h1 x (List.mem_cons_of_mem _ hx)).le
      rw [e1, e2]; simp [area2]

theorem sub_nc (q1 q2 : K × K) (r : List (K × K)) : ∀ p, NC q1 q2 p (sub 0 q1 q2 p r) := by
  induction r with
  | nil => intro p; trivial
  | cons s r ih =>
    intro p
    simp only [sub]
    unfold ins
    split
    · rename_i hc
      have h0 : pos q1 q2 (lineIntersection p s q1 q2) = 0 := by
        rw [lineIntersection_cr (ins_ne le_rfl hc), pos_cr 0 (ins_ne le_rfl hc)]
      simp only [List.cons_append, List.nil_append, NC, h0]
      simp [ih s]
    · rename_i hc
      simp only [neg_zero, gt_iff_lt] at hc
      push Not at hc
      refine ⟨?_, ?_, ih s⟩
      · rintro ⟨h1, h2⟩; exact absurd h2 (not_lt.2 (hc.2 h1))
      · rintro ⟨h1, h2⟩; exact absurd h2 (not_lt.2 (hc.1 h1))

theorem sub_pathAt (q q1 q2 : K × K) (r : List (K × K)) : ∀ p, pathAt q (p :: sub 0 q1 q2 p r) = pathAt q (p :: r) := by
  induction r with
  | nil => intro p; rfl
  | cons s r ih =>
    intro p
    simp only [sub]
    unfold ins
    split
    · rename_i hc
      have hm : lineIntersection p s q1 q2 ∈ ins 0 q1 q2 p s := by unfold ins; rw [if_pos hc]; simp
      obtain ⟨a, b, _, _, hab, he⟩ := (ins_segment le_rfl hm).1
      simp only [List.cons_append, List.nil_append, pathAt]
      rw [ih s, ← he, side_affine3 hab, side_affine2 hab, side_self2, side_self2]
      have : b = 1 - a := by linear_combination hab
      subst this
      ring
    · simp only [List.nil_append, pathAt, ih s]

theorem sub_last (ε : K) (q1 q2 : K × K) (t : List (K × K)) : ∀ p z, ∃ M, sub ε q1 q2 p (t ++ [z]) = M ++ [z] := by
  induction t with
  | nil => intro p z; exact ⟨ins ε q1 q2 p z, by simp [sub]⟩
  | cons s t ih =>
    intro p z
    obtain ⟨M, hM⟩ := ih s z
    exact ⟨ins ε q1 q2 p s ++ s :: M, by simp [sub, hM]⟩

theorem lineIntersection_swap (p s q1 q2 : K × K) : lineIntersection p s q2 q1 = lineIntersection p s q1 q2 := by
  simp only [lineIntersection]
  have e : (p.1 - s.1) * (q2.2 - q1.2) - (q2.1 - q1.1) * (p.2 - s.2) = -((p.1 - s.1) * (q1.2 - q2.2) - (q1.1 - q2.1) * (p.2 - s.2)) := by ring
  rw [e]
  ext
  · simp only
    rw [div_neg, ← neg_div]
    congr 1; ring
  · simp only
    rw [div_neg, ← neg_div]
    congr 1; ring

theorem pos_swap (q1 q2 p : K × K) : pos q2 q1 p = -pos q1 q2 p := by simp only [pos]; ring

theorem sub_swap (q1 q2 : K × K) (r : List (K × K)) : ∀ p, sub 0 q2 q1 p r = sub 0 q1 q2 p r := by
  induction r with
  | nil => intro p; rfl
  | cons s r ih =>
    intro p
    simp only [sub, ih s]
    congr 1
    simp only [ins, pos_swap q1 q2, lineIntersection_swap, neg_zero, gt_iff_lt, Left.neg_pos_iff, Left.neg_neg_iff]
    simp only [or_comm]

/-- C41: a line cuts any polygon into two parts, computed by clipping with the line in both directions, whose areas add up
to the area of the polygon. -/
theorem C41_cut {q1 q2 : K × K} (hq : q1 ≠ q2) (l : List (K × K)) :
    polygonArea (clipEdge 0 l (q1, q2)) + polygonArea (clipEdge 0 l (q2, q1)) = polygonArea l := by
  rw [polygonArea_eq, polygonArea_eq, polygonArea_eq]
  cases l with
  | nil => simp [clipEdge_nil, area2]
  | cons p t =>
    rw [clipEdge_cons le_rfl, clipEdge_cons le_rfl]
    simp only [pos_swap q1 q2, sub_swap q1 q2, Left.neg_nonpos_iff]
    obtain ⟨M, hM⟩ := sub_last 0 q1 q2 t p p
    have hnc := sub_nc q1 q2 (t ++ [p]) p
    have hpath := sub_pathAt q1 q1 q2 (t ++ [p]) p
    rw [hM] at hnc hpath ⊢
    have := split_nc hq hnc
    rw [← add_div, this, area2_rotate1, area2_pathAt q1, hpath, ← area2_pathAt]

theorem area_nonneg {l : List (K × K)} (h : Convex3 1 l) : 0 ≤ polygonArea l := by
  rw [← C41_fan]
  unfold signedFan
  refine List.sum_nonneg ?_
  intro x hx
  obtain ⟨t, ht, rfl⟩ := List.mem_map.1 hx
  cases l with
  | nil => simp [fan] at ht
  | cons p l =>
    have := fan_sign h t ht
    rw [one_mul] at this
    exact div_nonneg this (by norm_num)

/-- C41: the area of a counter-clockwise convex polygon is not negative, and clipping does not increase it. -/
theorem C41_monotone {subject : List (K × K)} (hs : ConvexPosition subject) (clip : List (K × K)) :
    0 ≤ polygonArea (sutherlandHodgman 0 subject clip) ∧ polygonArea (sutherlandHodgman 0 subject clip) ≤ polygonArea subject := by
  have hc : Convex3 1 subject := convex3_of fun a b c h => by rw [one_mul]; exact hs a b c h
  refine ⟨area_nonneg (fold_convex le_rfl _ _ hc), ?_⟩
  have key : ∀ (qs : List ((K × K) × (K × K))) (l : List (K × K)), Convex3 1 l → polygonArea (qs.foldl (clipEdge 0) l) ≤ polygonArea l := by
    intro qs
    induction qs with
    | nil => intro l _; exact le_rfl
    | cons q qs ih =>
      intro l hl
      refine (ih _ (clipEdge_convex le_rfl q hl)).trans ?_
      by_cases hq : q.1 = q.2
      · have : clipEdge 0 l q = l.rotate 1 := by
          refine rotate_edges q ?_ le_rfl
          intro p _
          have : pos q.1 q.2 p = 0 := by rw [hq]; simp only [pos]; ring
          rw [this]
        rw [this, C41_rotate]
      · have h1 := C41_cut hq l
        have h2 := area_nonneg (clipEdge_convex le_rfl (q.2, q.1) hl)
        linarith
  exact key _ _ hc

theorem triangle_cases (a b c : K × K) : ConvexPosition [a, b, c] ∨ ConvexPositionCW [a, b, c] := by
  have trip : ∀ {x y z : K × K}, [x, y, z].Sublist [a, b, c] → x = a ∧ y = b ∧ z = c := by
    intro x y z hs
    have := hs.eq_of_length rfl
    simpa using this
  rcases le_total 0 (side a b c) with hs | hs
  · refine Or.inl fun x y z hxyz => ?_
    obtain ⟨rfl, rfl, rfl⟩ := trip hxyz
    exact hs
  · refine Or.inr fun x y z hxyz => ?_
    obtain ⟨rfl, rfl, rfl⟩ := trip hxyz
    exact hs

theorem clip_position {ε : K} (hε : 0 ≤ ε) {l : List (K × K)} (h : ConvexPosition l ∨ ConvexPositionCW l) (clip : List (K × K)) :
    ConvexPosition (sutherlandHodgman ε l clip) ∨ ConvexPositionCW (sutherlandHodgman ε l clip) := by
  rcases h with h | h
  · exact Or.inl (C40_convex hε h clip)
  · refine Or.inr fun a b c hs => ?_
    have := convex3_triple (fold_convex hε (σ := -1) (edges clip) l (convex3_of fun a b c hs => by have := h a b c hs; linarith)) hs
    linarith

theorem sum_filter_bound (f : (K × K) × (K × K) × (K × K) → K) {δ : K} (fs : List ((K × K) × (K × K) × (K × K))) (h0 : ∀ t ∈ fs, 0 ≤ f t) (hδ : 0 ≤ δ) :
    ((fs.filter fun t => f t > δ).map f).sum ≤ (fs.map f).sum ∧ (fs.map f).sum ≤ ((fs.filter fun t => f t > δ).map f).sum + fs.length * δ := by
  induction fs with
  | nil => simp
  | cons t fs ih =>
    obtain ⟨h1, h2⟩ := ih fun t' ht' => h0 t' (by simp [ht'])
    have h3 := h0 t (by simp)
    by_cases hk : f t > δ
    · rw [List.filter_cons_of_pos (by simpa using hk)]
      simp only [List.map_cons, List.sum_cons, List.length_cons, Nat.cast_add, Nat.cast_one]
      constructor <;> nlinarith
    · rw [List.filter_cons_of_neg (by simpa using hk)]
      simp only [List.map_cons, List.sum_cons, List.length_cons, Nat.cast_add, Nat.cast_one]
      constructor <;> nlinarith

/-- C41 for cut sets: the volumes of the triangles add up to the area of the intersection polygon, except for the triangles
that are dropped because their volume is at most `δ`. The polygon is the one computed for the corners of the two elements in
their order. -/
theorem C41_cutset_bounds {ε δ : K} (hε : 0 ≤ ε) (hδ : 0 ≤ δ) (c e : (K × K) × (K × K) × (K × K)) :
    ∃ P : List (K × K), (P = sutherlandHodgman ε [c.1, c.2.1, c.2.2] [e.1, e.2.1, e.2.2] ∨
        P = sutherlandHodgman ε [c.1, c.2.2, c.2.1] [e.1, e.2.1, e.2.2]) ∧
      ((cutSet ε δ c e).map volume).sum ≤ |polygonArea P| ∧
      |polygonArea P| ≤ ((cutSet ε δ c e).map volume).sum + P.length * δ := by
  refine ⟨sutherlandHodgman ε [(orientCaching c).1, (orientCaching c).2.1, (orientCaching c).2.2] [e.1, e.2.1, e.2.2], ?_, ?_⟩
  · unfold orientCaching
    simp only
    split
    · exact Or.inr rfl
    · exact Or.inl rfl
  · have hp := clip_position hε (triangle_cases (orientCaching c).1 (orientCaching c).2.1 (orientCaching c).2.2) [e.1, e.2.1, e.2.2]
    rw [← C41_fan_volume hp]
    unfold cutSet
    have hv : ∀ t ∈ fan (sutherlandHodgman ε [(orientCaching c).1, (orientCaching c).2.1, (orientCaching c).2.2] [e.1, e.2.1, e.2.2]), 0 ≤ volume t :=
      fun t _ => div_nonneg (abs_nonneg _) (by norm_num)
    obtain ⟨h1, h2⟩ := sum_filter_bound volume _ hv hδ
    refine ⟨h1, h2.trans ?_⟩
    have hlen : (fan (sutherlandHodgman ε [(orientCaching c).1, (orientCaching c).2.1, (orientCaching c).2.2] [e.1, e.2.1, e.2.2])).length ≤
        (sutherlandHodgman ε [(orientCaching c).1, (orientCaching c).2.1, (orientCaching c).2.2] [e.1, e.2.1, e.2.2]).length := by
      generalize sutherlandHodgman ε [(orientCaching c).1, (orientCaching c).2.1, (orientCaching c).2.2] [e.1, e.2.1, e.2.2] = l
      cases l with
      | nil => simp [fan]
      | cons p l => simp [fan]; omega
    have : ((fan (sutherlandHodgman ε [(orientCaching c).1, (orientCaching c).2.1, (orientCaching c).2.2] [e.1, e.2.1, e.2.2])).length : K) ≤
        ((sutherlandHodgman ε [(orientCaching c).1, (orientCaching c).2.1, (orientCaching c).2.2] [e.1, e.2.1, e.2.2]).length : K) := by
      exact_mod_cast hlen
    nlinarith

/-- The volumes of a cut set do not add up to the area of the intersection: an element with corners at distance `1e-4`
has no cut set with itself. -/
theorem C117_cutset_false : ¬ ∀ c e : (ℚ × ℚ) × (ℚ × ℚ) × (ℚ × ℚ), 0 < side e.1 e.2.1 e.2.2 →
    ((cutSet (1 / 10 ^ 14) (1 / 10 ^ 8) c e).map volume).sum = |polygonArea (sutherlandHodgman (1 / 10 ^ 14) [c.1, c.2.1, c.2.2] [e.1, e.2.1, e.2.2])| := by
  intro h
  exact absurd (h ((0, 0), (1 / 10000, 0), (0, 1 / 10000)) ((0, 0), (1 / 10000, 0), (0, 1 / 10000)) (by decide +kernel)) (by decide +kernel)

example : polygonArea ([(5, 2), (4, 4), (2, 4), (1, 2), (2, 0), (4, 0)] : List (ℚ × ℚ)) = 12 := by decide +kernel

/-- The hexagon of `Props.lean` as a cut set: four triangles. -/
example : ((cutSet (0 : ℚ) (1 / 10 ^ 8) ((0, 0), (6, 0), (3, 6)) ((0, 4), (3, -2), (6, 4))).map volume) = [2, 4, 4, 2] := by decide +kernel

end Verif.Clip
