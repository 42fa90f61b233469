import Mathlib.Analysis.InnerProductSpace.PiL2
import Mathlib.Data.Fin.VecNotation
import Mathlib.Tactic.Linarith
import Verif.Distance.Model

/-!
# C215, C216: distance to the interface in 3D (remeshing/distance.hh)

`double` is modelled by the real numbers.
-/

namespace Verif.Distance.Space

/-- Points of the space. (Models: `FieldVector`, dune-common.) -/
abbrev Point := EuclideanSpace ℝ (Fin 3)

/-- An interface element, given by its corners. (Models: `geo`, remeshing/distance.hh:145.) -/
abbrev Facet := Fin 3 → Point

/-- `two_norm2`. (Models: dune-common.) -/
def norm2sq (u : Point) : ℝ := u 0 * u 0 + u 1 * u 1 + u 2 * u 2

/-- The body of the loop over the corners (remeshing/distance.hh:161-167). -/
noncomputable def cornerStep (p : Point) (f : Facet) (d : ℝ) (i : Fin 3) : ℝ :=
  let d := min d (norm2sq (p - f i))
  min d (norm2sq (p - (1 / 2 : ℝ) • (f i + f (i + 1))))

/-- `geo.center()` (grid/geometry.hh:26-66 with dune-geometry): the average of the corners. -/
noncomputable def center (f : Facet) : Point := (1 / 3 : ℝ) • (f 0 + f 1 + f 2)

/-- `computeDistance` in 3D (remeshing/distance.hh:157-173). -/
noncomputable def computeDistance (p : Point) (f : Facet) : ℝ :=
  let d := [0, 1, 2].foldl (cornerStep p f) high
  let d := min d (norm2sq (p - center f))
  Real.sqrt d

/-- `handleFacet` (remeshing/distance.hh:133-140), see `Distance.handleFacet`. -/
noncomputable def handleFacet (vs : List (Bool × Point)) (ds : List ℝ) (f : Facet) : List ℝ :=
  List.zipWith (fun v d => if v.1 ∧ computeDistance v.2 f < d then computeDistance v.2 f else d) vs ds

/-- `update` (remeshing/distance.hh:42-59); `fs`: the interior interface elements. -/
noncomputable def update (vs : List (Bool × Point)) (fs : List Facet) : List ℝ :=
  fs.foldl (handleFacet vs) (List.replicate vs.length high)

/-! ## Specification -/

/-- The points of an interface element. -/
def hull (f : Facet) : Set Point := {x | ∃ s t u : ℝ, 0 ≤ s ∧ 0 ≤ t ∧ 0 ≤ u ∧ s + t + u = 1 ∧ x = s • f 0 + t • f 1 + u • f 2}

/-- All edges of the element are at most this long. -/
def EdgesLe (f : Facet) (h : ℝ) : Prop := ∀ i j, dist (f i) (f j) ≤ h

/-- The distance of a point to the interface: the least distance to its points. -/
def IsDist (p : Point) (fs : List Facet) (d : ℝ) : Prop := IsLeast {r | ∃ f ∈ fs, ∃ x ∈ hull f, r = dist p x} d

/-! ## Proofs -/

theorem norm2sq_sub (p x : Point) : norm2sq (p - x) = dist p x ^ 2 := by
  rw [EuclideanSpace.dist_eq, Real.sq_sqrt (Finset.sum_nonneg fun _ _ => sq_nonneg _), Fin.sum_univ_three]
  simp only [norm2sq, Real.dist_eq, sq_abs, PiLp.sub_apply]
  ring

/-- The seven points that are looked at. -/
noncomputable def samples (f : Facet) : List Point :=
  [f 0, (1 / 2 : ℝ) • (f 0 + f 1), f 1, (1 / 2 : ℝ) • (f 1 + f 2), f 2, (1 / 2 : ℝ) • (f 2 + f 0), center f]

theorem computeDistance_le {p : Point} {f : Facet} {x : Point} (hx : x ∈ samples f) : computeDistance p f ≤ dist p x := by
  unfold computeDistance
  refine Real.sqrt_le_iff.2 ⟨dist_nonneg, ?_⟩
  rw [← norm2sq_sub]
  simp only [samples, List.mem_cons, List.not_mem_nil, or_false] at hx
  simp only [List.foldl_cons, List.foldl_nil, cornerStep, min_le_iff, show (0 : Fin 3) + 1 = 1 from rfl, show (1 : Fin 3) + 1 = 2 from rfl, show (2 : Fin 3) + 1 = 0 from rfl]
  rcases hx with rfl | rfl | rfl | rfl | rfl | rfl | rfl <;> simp

theorem computeDistance_eq (p : Point) (f : Facet) : computeDistance p f = 10 ^ 50 ∨ ∃ x ∈ samples f, computeDistance p f = dist p x := by
  have hs : ∀ x, Real.sqrt (norm2sq (p - x)) = dist p x := fun x => by rw [norm2sq_sub, Real.sqrt_sq dist_nonneg]
  have hh : Real.sqrt high = 10 ^ 50 := by
    rw [high, show (10 : ℝ) ^ 100 = (10 ^ 50) ^ 2 by norm_num, Real.sqrt_sq (by positivity)]
  unfold computeDistance
  simp only [List.foldl_cons, List.foldl_nil, cornerStep, show (0 : Fin 3) + 1 = 1 from rfl, show (1 : Fin 3) + 1 = 2 from rfl, show (2 : Fin 3) + 1 = 0 from rfl]
  have key : ∀ (a : ℝ) (x : Point), (Real.sqrt a = 10 ^ 50 ∨ ∃ x ∈ samples f, Real.sqrt a = dist p x) → x ∈ samples f →
      (Real.sqrt (min a (norm2sq (p - x))) = 10 ^ 50 ∨ ∃ y ∈ samples f, Real.sqrt (min a (norm2sq (p - x))) = dist p y) := by
    intro a x ha hx
    rcases min_choice a (norm2sq (p - x)) with h | h
    · rw [h]; exact ha
    · rw [h]; exact Or.inr ⟨x, hx, hs x⟩
  refine key _ _ (key _ _ (key _ _ (key _ _ (key _ _ (key _ _ (key _ _ (Or.inl hh) ?_) ?_) ?_) ?_) ?_) ?_) ?_ <;> simp [samples]

theorem sample_mem {f : Facet} {x : Point} (hx : x ∈ samples f) : x ∈ hull f := by
  simp only [samples, List.mem_cons, List.not_mem_nil, or_false] at hx
  rcases hx with rfl | rfl | rfl | rfl | rfl | rfl | rfl
  · exact ⟨1, 0, 0, by norm_num, by norm_num, by norm_num, by norm_num, by simp⟩
  · exact ⟨1 / 2, 1 / 2, 0, by norm_num, by norm_num, by norm_num, by norm_num, by module⟩
  · exact ⟨0, 1, 0, by norm_num, by norm_num, by norm_num, by norm_num, by simp⟩
  · exact ⟨0, 1 / 2, 1 / 2, by norm_num, by norm_num, by norm_num, by norm_num, by module⟩
  · exact ⟨0, 0, 1, by norm_num, by norm_num, by norm_num, by norm_num, by simp⟩
  · exact ⟨1 / 2, 0, 1 / 2, by norm_num, by norm_num, by norm_num, by norm_num, by module⟩
  · exact ⟨1 / 3, 1 / 3, 1 / 3, by norm_num, by norm_num, by norm_num, by norm_num, by rw [center]; module⟩

/-- A point of a triangle is near to one of the corners. -/
theorem near_corner {a b c x : Point} {s t u L : ℝ} (hs : 0 ≤ s) (ht : 0 ≤ t) (hu : 0 ≤ u) (h1 : s + t + u = 1) (hx : x = s • a + t • b + u • c)
    (hab : dist a b ≤ L) (hbc : dist b c ≤ L) (hca : dist c a ≤ L) : ∃ y, (y = a ∨ y = b ∨ y = c) ∧ dist x y ^ 2 ≤ L ^ 2 / 3 := by
  have sq : ∀ {p q : Point}, dist p q ≤ L → norm2sq (p - q) ≤ L ^ 2 := fun {p q} h => by
    rw [norm2sq_sub]
    exact pow_le_pow_left₀ dist_nonneg h 2
  have e : s * norm2sq (x - a) + t * norm2sq (x - b) + u * norm2sq (x - c) =
      s * t * norm2sq (a - b) + t * u * norm2sq (b - c) + u * s * norm2sq (c - a) := by
    have hu' : u = 1 - s - t := by linarith
    subst hx hu'
    simp only [norm2sq, PiLp.sub_apply, PiLp.add_apply, PiLp.smul_apply, smul_eq_mul]
    ring
  by_contra hn
  push Not at hn
  have ha := hn a (Or.inl rfl)
  have hb := hn b (Or.inr (Or.inl rfl))
  have hc := hn c (Or.inr (Or.inr rfl))
  rw [← norm2sq_sub] at ha hb hc
  have r1 := mul_le_mul_of_nonneg_left (sq hab) (mul_nonneg hs ht)
  have r2 := mul_le_mul_of_nonneg_left (sq hbc) (mul_nonneg ht hu)
  have r3 := mul_le_mul_of_nonneg_left (sq hca) (mul_nonneg hu hs)
  have third : s * t + t * u + u * s ≤ 1 / 3 := by
    have : u = 1 - s - t := by linarith
    subst this
    nlinarith [sq_nonneg (s - t), sq_nonneg (t - (1 - s - t)), sq_nonneg ((1 - s - t) - s)]
  have hL := mul_le_mul_of_nonneg_right third (sq_nonneg L)
  have l1 := mul_le_mul_of_nonneg_left ha.le hs
  have l2 := mul_le_mul_of_nonneg_left hb.le ht
  have l3 := mul_le_mul_of_nonneg_left hc.le hu
  have hpos : 0 < s ∨ 0 < t ∨ 0 < u := by
    by_contra h
    push Not at h
    linarith [h.1, h.2.1, h.2.2]
  have hsum : s * (L ^ 2 / 3) + t * (L ^ 2 / 3) + u * (L ^ 2 / 3) = L ^ 2 / 3 := by rw [← add_mul, ← add_mul, h1, one_mul]
  rcases hpos with hp | hp | hp
  · have := mul_lt_mul_of_pos_left ha hp
    nlinarith
  · have := mul_lt_mul_of_pos_left hb hp
    nlinarith
  · have := mul_lt_mul_of_pos_left hc hp
    nlinarith

theorem dist_half {a b c : Point} : dist ((1 / 2 : ℝ) • (a + b)) ((1 / 2 : ℝ) • (a + c)) = dist b c / 2 := by
  rw [dist_eq_norm, show (1 / 2 : ℝ) • (a + b) - (1 / 2 : ℝ) • (a + c) = (1 / 2 : ℝ) • (b - c) by module, norm_smul, ← dist_eq_norm]
  rw [Real.norm_of_nonneg (by norm_num)]
  ring

/-- A point of a triangle is near to one of the sample points. -/
theorem near_sample {f : Facet} {h : ℝ} (hh : EdgesLe f h) {x : Point} (hx : x ∈ hull f) : ∃ y ∈ samples f, dist x y ≤ h / (2 * Real.sqrt 3) := by
  have h0 : 0 ≤ h := dist_nonneg.trans (hh 0 0)
  have fin : ∀ y, dist x y ^ 2 ≤ (h / 2) ^ 2 / 3 → dist x y ≤ h / (2 * Real.sqrt 3) := by
    intro y hy
    refine abs_le_of_sq_le_sq' (?_ : _ ≤ _) (by positivity) |>.2
    rw [div_pow, mul_pow, Real.sq_sqrt (by norm_num)]
    calc _ ≤ _ := hy
      _ = _ := by ring
  have d : ∀ {a b : Point} (i j : Fin 3), dist a b = dist (f i) (f j) / 2 → dist a b ≤ h / 2 := fun i j e => by
    rw [e]
    linarith [hh i j]
  have half1 : ∀ a b : Point, dist a ((1 / 2 : ℝ) • (a + b)) = dist a b / 2 := fun a b => by
    rw [← dist_half (a := a), show (1 / 2 : ℝ) • (a + a) = a by module]
  have half2 : ∀ a b : Point, dist ((1 / 2 : ℝ) • (b + a)) a = dist b a / 2 := fun a b => by
    rw [dist_comm, add_comm, half1, dist_comm]
  have mid : ∀ a b c : Point, dist ((1 / 2 : ℝ) • (a + b)) ((1 / 2 : ℝ) • (b + c)) = dist a c / 2 := fun a b c => by
    rw [← dist_half (a := b), add_comm a b]
  obtain ⟨s, t, u, hs, ht, hu, h1, hx⟩ := hx
  have found : ∃ y, y ∈ samples f ∧ dist x y ^ 2 ≤ (h / 2) ^ 2 / 3 := by
    by_cases cs : 1 / 2 ≤ s
    · obtain ⟨y, hy, hd⟩ := near_corner (a := f 0) (b := (1 / 2 : ℝ) • (f 0 + f 1)) (c := (1 / 2 : ℝ) • (f 2 + f 0)) (x := x) (s := s - t - u) (t := 2 * t) (u := 2 * u)
        (L := h / 2) (by linarith) (by linarith) (by linarith) (by linarith) (by rw [hx]; module) (d 0 1 (half1 _ _)) (d 1 2 (by rw [add_comm (f 2), dist_half])) (d 2 0 (half2 _ _))
      exact ⟨y, by rcases hy with rfl | rfl | rfl <;> simp [samples], hd⟩
    by_cases ct : 1 / 2 ≤ t
    · obtain ⟨y, hy, hd⟩ := near_corner (a := f 1) (b := (1 / 2 : ℝ) • (f 1 + f 2)) (c := (1 / 2 : ℝ) • (f 0 + f 1)) (x := x) (s := t - s - u) (t := 2 * u) (u := 2 * s)
        (L := h / 2) (by linarith) (by linarith) (by linarith) (by linarith) (by rw [hx]; module) (d 1 2 (half1 _ _)) (d 2 0 (by rw [add_comm (f 0), dist_half])) (d 0 1 (half2 _ _))
      exact ⟨y, by rcases hy with rfl | rfl | rfl <;> simp [samples], hd⟩
    by_cases cu : 1 / 2 ≤ u
    · obtain ⟨y, hy, hd⟩ := near_corner (a := f 2) (b := (1 / 2 : ℝ) • (f 2 + f 0)) (c := (1 / 2 : ℝ) • (f 1 + f 2)) (x := x) (s := u - s - t) (t := 2 * s) (u := 2 * t)
        (L := h / 2) (by linarith) (by linarith) (by linarith) (by linarith) (by rw [hx]; module) (d 2 0 (half1 _ _)) (d 0 1 (by rw [add_comm (f 1), dist_half])) (d 1 2 (half2 _ _))
      exact ⟨y, by rcases hy with rfl | rfl | rfl <;> simp [samples], hd⟩
    · obtain ⟨y, hy, hd⟩ := near_corner (a := (1 / 2 : ℝ) • (f 0 + f 1)) (b := (1 / 2 : ℝ) • (f 1 + f 2)) (c := (1 / 2 : ℝ) • (f 2 + f 0)) (x := x) (s := 1 - 2 * u) (t := 1 - 2 * s)
        (u := 1 - 2 * t) (L := h / 2) (by linarith) (by linarith) (by linarith) (by linarith)
        (by
          have : u = 1 - s - t := by linarith
          subst this
          rw [hx]
          module)
        (d 0 2 (mid _ _ _)) (d 1 0 (mid _ _ _)) (d 2 1 (mid _ _ _))
      exact ⟨y, by rcases hy with rfl | rfl | rfl <;> simp [samples], hd⟩
  obtain ⟨y, hy, hd⟩ := found
  exact ⟨y, hy, fin y hd⟩

theorem handleFacet_get {vs : List (Bool × Point)} {ds : List ℝ} {f : Facet} {i : Nat} {v : Bool × Point} {d : ℝ}
    (hv : vs[i]? = some v) (hd : ds[i]? = some d) :
    (handleFacet vs ds f)[i]? = some (if v.1 ∧ computeDistance v.2 f < d then computeDistance v.2 f else d) := by
  unfold handleFacet
  rw [List.getElem?_zipWith, hv, hd]

theorem fold_get {vs : List (Bool × Point)} {i : Nat} {p : Point} (hv : vs[i]? = some (true, p)) (fs : List Facet) :
    ∀ (ds : List ℝ) (d : ℝ), ds[i]? = some d →
      ∃ m, (fs.foldl (handleFacet vs) ds)[i]? = some m ∧ m ≤ d ∧ (∀ f ∈ fs, m ≤ computeDistance p f) ∧ (m = d ∨ ∃ f ∈ fs, m = computeDistance p f) := by
  induction fs with
  | nil => intro ds d hd; exact ⟨d, hd, le_refl _, by simp, Or.inl rfl⟩
  | cons f fs ih =>
    intro ds d hd
    have hg := handleFacet_get (f := f) hv hd
    obtain ⟨m, h1, h2, h3, h4⟩ := ih _ _ hg
    refine ⟨m, h1, ?_, ?_, ?_⟩
    · refine h2.trans ?_
      split
      · rename_i h; exact h.2.le
      · exact le_refl _
    · intro g hg'
      rcases List.mem_cons.1 hg' with rfl | hg'
      · refine h2.trans ?_
        split
        · exact le_refl _
        · rename_i h; simpa using h
      · exact h3 g hg'
    · rcases h4 with h4 | ⟨g, hg', h4⟩
      · by_cases h : computeDistance p f < d
        · exact Or.inr ⟨f, by simp, by simpa [h] using h4⟩
        · exact Or.inl (by simpa [h] using h4)
      · exact Or.inr ⟨g, by simp [hg'], h4⟩

theorem update_get {vs : List (Bool × Point)} {i : Nat} {p : Point} (hv : vs[i]? = some (true, p)) (fs : List Facet) :
    ∃ m, (update vs fs)[i]? = some m ∧ (∀ f ∈ fs, m ≤ computeDistance p f) ∧ (m = 10 ^ 100 ∨ ∃ f ∈ fs, m = computeDistance p f) := by
  have hi : i < vs.length := (List.getElem?_eq_some_iff.1 hv).1
  obtain ⟨m, h1, -, h3, h4⟩ := fold_get hv fs (List.replicate vs.length high) high (by simp [hi])
  exact ⟨m, h1, h3, h4⟩

/-- **C215** In 3D the value stored for an interior vertex is at least the distance to the interface: it is the distance to one of its points, or 10^50 at least. -/
theorem C215_above (vs : List (Bool × Point)) (fs : List Facet) {i : Nat} {p : Point} (hv : vs[i]? = some (true, p)) :
    ∃ m, (update vs fs)[i]? = some m ∧ (10 ^ 50 ≤ m ∨ ∃ f ∈ fs, ∃ x ∈ hull f, m = dist p x) := by
  obtain ⟨m, h1, -, h⟩ := update_get hv fs
  refine ⟨m, h1, ?_⟩
  rcases h with rfl | ⟨f, hf, rfl⟩
  · exact Or.inl (by norm_num)
  · rcases computeDistance_eq p f with h | ⟨x, hx, h⟩
    · exact Or.inl h.ge
    · exact Or.inr ⟨f, hf, x, sample_mem hx, h⟩

/-- **C215** It exceeds the distance to a point of an interface element by at most 0.29 times the length of the longest edge of this element. -/
theorem C215_error (vs : List (Bool × Point)) (fs : List Facet) {i : Nat} {p : Point} (hv : vs[i]? = some (true, p)) :
    ∃ m, (update vs fs)[i]? = some m ∧ ∀ f ∈ fs, ∀ h, EdgesLe f h → ∀ x ∈ hull f, m ≤ dist p x + h / (2 * Real.sqrt 3) := by
  obtain ⟨m, h1, h2, -⟩ := update_get hv fs
  refine ⟨m, h1, fun f hf h hh x hx => ?_⟩
  obtain ⟨y, hy, hd⟩ := near_sample hh hx
  calc m ≤ dist p y := (h2 f hf).trans (computeDistance_le hy)
    _ ≤ dist p x + dist x y := dist_triangle _ _ _
    _ ≤ _ := by linarith

/-- **C215** It is zero exactly on the interface, if the mesh is conforming: a vertex that lies on an interface element is one of its corners. -/
theorem C215_zero (vs : List (Bool × Point)) (fs : List Facet) {i : Nat} {p : Point} (hv : vs[i]? = some (true, p))
    (hc : ∀ f ∈ fs, p ∈ hull f → ∃ k, p = f k) : (update vs fs)[i]? = some 0 ↔ ∃ f ∈ fs, p ∈ hull f := by
  constructor
  · intro h
    obtain ⟨m, h1, h2⟩ := C215_above vs fs hv
    rw [h] at h1
    cases h1
    rcases h2 with h2 | ⟨f, hf, x, hx, h2⟩
    · exact absurd h2 (by norm_num)
    · rw [dist_eq_zero.1 h2.symm]
      exact ⟨f, hf, hx⟩
  · rintro ⟨f, hf, hp⟩
    obtain ⟨k, hk⟩ := hc f hf hp
    obtain ⟨m, h1, h2, h3⟩ := update_get hv fs
    rw [h1]
    congr 1
    apply le_antisymm
    · refine (h2 f hf).trans ((computeDistance_le (x := f k) ?_).trans ?_)
      · fin_cases k <;> simp [samples]
      · rw [← hk, dist_self]
    · rcases h3 with rfl | ⟨g, _, rfl⟩
      · positivity
      · exact Real.sqrt_nonneg _

/-! ## Example: the triangle with corners (0, 0, 0), (8, 0, 0), (0, 8, 0), and a vertex at (1, 1, 0) + z -/

noncomputable def tri : Facet := ![!₂[0, 0, 0], !₂[8, 0, 0], !₂[0, 8, 0]]

noncomputable def apex : Point := !₂[1, 1, 1]

theorem apex_dist : IsDist apex [tri] 1 := by
  constructor
  · refine ⟨tri, by simp, !₂[1, 1, 0], ⟨6 / 8, 1 / 8, 1 / 8, by norm_num, by norm_num, by norm_num, by norm_num, ?_⟩, ?_⟩
    · ext k
      fin_cases k <;> simp [tri]
    · rw [EuclideanSpace.dist_eq, Fin.sum_univ_three]
      simp [apex]
  · rintro r ⟨f, hf, x, ⟨s, t, u, hs, ht, hu, h1, hx⟩, rfl⟩
    rw [List.mem_singleton] at hf
    subst hf
    have hx2 : x 2 = 0 := by rw [hx]; simp [tri]
    have h := norm2sq_sub apex x
    have h1 : (1 : ℝ) ^ 2 ≤ dist apex x ^ 2 := by
      rw [← h]
      simp only [norm2sq, PiLp.sub_apply, hx2]
      have : apex 2 = 1 := by simp [apex]
      rw [this]
      nlinarith [mul_self_nonneg (apex 0 - x 0), mul_self_nonneg (apex 1 - x 1)]
    exact abs_le_of_sq_le_sq' h1 dist_nonneg |>.2

/-- **C216** (refuted) "The value stored for an interior vertex is the distance to the interface, in 3D as well": here the distance is 1 and the value is the distance to a corner. -/
theorem C216_exact_false : ¬ ∀ (vs : List (Bool × Point)) (fs : List Facet) (i : Nat) (p : Point) (d : ℝ), vs[i]? = some (true, p) → IsDist p fs d → (update vs fs)[i]? = some d := by
  intro h
  have h0 := h [(true, apex)] [tri] 0 apex 1 rfl apex_dist
  obtain ⟨m, h1, -, h3⟩ := update_get (vs := [(true, apex)]) (i := 0) (p := apex) rfl [tri]
  rw [h0] at h1
  cases h1
  rcases h3 with h3 | ⟨f, hf, h3⟩
  · exact absurd h3 (by norm_num)
  · rw [List.mem_singleton] at hf
    subst hf
    rcases computeDistance_eq apex tri with h4 | ⟨x, hx, h4⟩
    · rw [← h3] at h4
      exact absurd h4 (by norm_num)
    · rw [← h3] at h4
      have h5 := norm2sq_sub apex x
      rw [← h4] at h5
      simp only [samples, center, List.mem_cons, List.not_mem_nil, or_false] at hx
      rcases hx with rfl | rfl | rfl | rfl | rfl | rfl | rfl <;> simp [norm2sq, apex, tri] at h5 <;> norm_num at h5

/-- The vertices of this triangle have distance zero. -/
example : (update [(true, tri 1), (true, apex)] [tri])[0]? = some 0 := by
  refine (C215_zero _ _ rfl fun f hf _ => ?_).2 ⟨tri, by simp, 0, 1, 0, by norm_num, by norm_num, by norm_num, by norm_num, by simp⟩
  rw [List.mem_singleton] at hf
  subst hf
  exact ⟨1, rfl⟩

example : EdgesLe tri 12 := by
  intro i j
  rw [EuclideanSpace.dist_eq, Real.sqrt_le_iff]
  refine ⟨by norm_num, ?_⟩
  rw [Fin.sum_univ_three]
  fin_cases i <;> fin_cases j <;> simp [tri, Real.dist_eq] <;> norm_num

example := C215_error [(true, apex)] [tri] (i := 0) (p := apex) rfl

end Verif.Distance.Space
