import Verif.MoveGeo.Simplex

/-!
# Moving vertices keeps the elements disjoint and the domain covered (any dimension)
-/

namespace Verif.MoveGeo

open Verif.Refine Finset

variable {K : Type*} [Field K] [LinearOrder K] [IsStrictOrderedRing K] {d : ℕ}

/-! ## Specification -/

/-- `moveVertices` and `moveInterface` (mmesh.hh:1407-1430) on the triangulation: the elements stay the same, every vertex is moved by its shift (zero for vertices that
are not on the interface in `moveInterface`). -/
def moved (M : Mesh (Fin d → K) d) (shift : ℕ → Fin d → K) : Mesh (Fin d → K) d := { M with pos := fun v => M.pos v + shift v }

/-- All elements have positive volume. -/
def Positive (M : Mesh (Fin d → K) d) : Prop := ∀ c ∈ M.cells, 0 < signedVolume fun i => M.pos (c i)

/-- No element is listed twice. -/
def Once (M : Mesh (Fin d → K) d) : Prop := M.cells.Pairwise fun c c' => Set.range c ≠ Set.range c'

/-- The points inside an element, not on its boundary: all barycentric coordinates are positive. -/
def inside (M : Mesh (Fin d → K) d) (c : Fin (d + 1) → ℕ) : Set (Fin d → K) :=
  {x | ∃ w : Fin (d + 1) → K, (∀ i, 0 < w i) ∧ ∑ i, w i = 1 ∧ ∑ i, w i • M.pos (c i) = x}

/-! ## Triangles -/

/-- Twice the signed area of the triangle `p q x`. -/
def orient (p q x : Fin 2 → K) : K := (q 0 - p 0) * (x 1 - p 1) - (q 1 - p 1) * (x 0 - p 0)

theorem volume_orient (p : Fin 3 → Fin 2 → K) : signedVolume p = orient (p 0) (p 1) (p 2) := by
  rw [volume_plane]
  unfold orient
  rfl

/-! ## Facets -/

omit [LinearOrder K] [IsStrictOrderedRing K] in
theorem exists_extension {c : Fin (d + 1) → ℕ} (hc : Function.Injective c) (a : Fin (d + 1) → K) :
    ∃ u : ℕ → K, (∀ i, u (c i) = a i) ∧ ∀ v, v ∉ verts c → u v = 0 := by
  refine ⟨fun v => ∑ i, if c i = v then a i else 0, fun i => ?_, fun v hv => ?_⟩
  · simp only
    rw [Finset.sum_eq_single i]
    · simp
    · intro j _ hj
      exact if_neg fun h => hj (hc h)
    · intro h
      exact absurd (mem_univ i) h
  · exact Finset.sum_eq_zero fun i _ => if_neg fun h => hv (mem_verts.2 ⟨i, h⟩)

/-- The sum of a function that vanishes outside of both sets. -/
theorem sum_both {A : Type*} [AddCommMonoid A] {S T : Finset ℕ} {f : ℕ → A} (hS : ∀ v, v ∉ S → f v = 0) (hT : ∀ v, v ∉ T → f v = 0) :
    ∑ v ∈ S, f v = ∑ v ∈ T, f v := by
  rw [Finset.sum_subset (Finset.subset_union_left (s₁ := S) (s₂ := T)) fun v _ hv => hS v hv,
    Finset.sum_subset (Finset.subset_union_right (s₁ := S) (s₂ := T)) fun v _ hv => hT v hv]

/-- Two elements of a conforming mesh with a common facet are on different sides of it. -/
theorem same_side {M : Mesh (Fin d → K) d} (hM : Conforming K M) {c c' : Fin (d + 1) → ℕ} (hc : c ∈ M.cells) (hc' : c' ∈ M.cells) {i j : Fin (d + 1)}
    (hF : ∀ k, k ≠ i → c k ∈ verts c') (hw : c' j ∉ verts c) (hp : 0 < signedVolume fun k => M.pos (c k))
    (hpos : 0 < signedVolume (Function.update (fun k => M.pos (c k)) i (M.pos (c' j)))) : False := by
  have hinj := hM.inj c hc
  obtain ⟨β, hβ, hβx⟩ := exists_weights hp.ne' (M.pos (c' j))
  rw [← hβx, volume_combination _ β hβ] at hpos
  have hβi : 0 < β i := pos_of_mul_pos_left hpos hp.le
  let n : Fin (d + 1) → K := fun k => if k = i then 0 else max (- β k) 0
  have hn0 : ∀ k, 0 ≤ n k := by
    intro k
    simp only [n]
    split_ifs
    · exact le_refl _
    · exact le_max_right _ _
  have hB : 0 < 1 + ∑ k, n k := by
    have := Finset.sum_nonneg fun k (_ : k ∈ univ) => hn0 k
    linarith
  let ε : K := 1 / (1 + ∑ k, n k)
  have hε : 0 < ε := one_div_pos.2 hB
  have hεB : ε * (1 + ∑ k, n k) = 1 := one_div_mul_cancel hB.ne'
  obtain ⟨u, hu, hu0⟩ := exists_extension hinj fun k => ε * (β k + n k)
  obtain ⟨u2, hu2, hu20⟩ := exists_extension hinj fun k => ε * n k
  have hu2' : ∀ v, v ∉ verts c' → u2 v = 0 := by
    intro v hv
    by_cases hvc : v ∈ verts c
    · obtain ⟨k, rfl⟩ := mem_verts.1 hvc
      rw [hu2]
      by_cases hk : k = i
      · simp [n, hk]
      · exact absurd (hF k hk) hv
    · exact hu20 v hvc
  let u' : ℕ → K := fun v => u2 v + if v = c' j then ε else 0
  have hjv : c' j ∈ verts c' := mem_verts.2 ⟨j, rfl⟩
  have h1 : IsWeight (verts c) u := by
    refine ⟨fun v => ?_, hu0, ?_⟩
    · by_cases hvc : v ∈ verts c
      · obtain ⟨k, rfl⟩ := mem_verts.1 hvc
        rw [hu]
        refine mul_nonneg hε.le ?_
        simp only [n]
        split_ifs with hk
        · rw [hk, add_zero]; exact hβi.le
        · linarith [le_max_left (- β k) 0]
      · rw [hu0 v hvc]
    · rw [sum_verts hinj, Finset.sum_congr rfl fun k _ => hu k, ← Finset.mul_sum, Finset.sum_add_distrib, hβ, hεB]
  have h2 : IsWeight (verts c') u' := by
    refine ⟨fun v => ?_, fun v hv => ?_, ?_⟩
    · simp only [u']
      refine add_nonneg ?_ ?_
      · by_cases hvc : v ∈ verts c
        · obtain ⟨k, rfl⟩ := mem_verts.1 hvc
          rw [hu2]
          exact mul_nonneg hε.le (hn0 k)
        · rw [hu20 v hvc]
      · split_ifs
        · exact hε.le
        · exact le_refl _
    · simp only [u']
      rw [hu2' v hv, if_neg (by rintro rfl; exact hv hjv), add_zero]
    · simp only [u']
      rw [Finset.sum_add_distrib, sum_both hu2' hu20, sum_verts hinj, Finset.sum_congr rfl fun k _ => hu2 k, ← Finset.mul_sum,
        Finset.sum_ite_eq' _ (c' j), if_pos hjv, ← hεB]
      ring
  have heq : ∑ v ∈ verts c, u v • M.pos v = ∑ v ∈ verts c', u' v • M.pos v := by
    have e : ∀ v, u' v • M.pos v = u2 v • M.pos v + if v = c' j then ε • M.pos v else 0 := by
      intro v
      simp only [u', add_smul]
      split_ifs <;> simp
    rw [Finset.sum_congr rfl fun v _ => e v, Finset.sum_add_distrib,
      sum_both (f := fun v => u2 v • M.pos v) (S := verts c') (T := verts c) (fun v hv => by simp only [hu2' v hv, zero_smul])
        (fun v hv => by simp only [hu20 v hv, zero_smul]),
      Finset.sum_ite_eq' _ (c' j), if_pos hjv, sum_verts hinj fun v => u v • M.pos v, sum_verts hinj fun v => u2 v • M.pos v, ← hβx,
      Finset.smul_sum, ← Finset.sum_add_distrib]
    refine Finset.sum_congr rfl fun k _ => ?_
    rw [hu, hu2]
    module
  have := congrFun (hM.unique c hc c' hc' u u' h1 h2 heq) (c' j)
  simp only [u', if_true] at this
  rw [hu0 _ hw, hu20 _ hw, zero_add] at this
  exact hε.ne this

theorem perm_of_image {f g : Fin (d + 1) → ℕ} (hf : Function.Injective f) (h : verts f = verts g) :
    ∃ σ : Equiv.Perm (Fin (d + 1)), f = g ∘ σ := by
  have hex : ∀ k, ∃ l, g l = f k := fun k => mem_verts.1 (h ▸ mem_verts.2 ⟨k, rfl⟩)
  choose s hs using hex
  have hsi : Function.Injective s := by
    intro a b hab
    apply hf
    rw [← hs a, ← hs b, hab]
  refine ⟨Equiv.ofBijective s (Finite.injective_iff_bijective.1 hsi), ?_⟩
  funext k
  exact (hs k).symm

/-- Two elements with their vertices opposite to a common facet. -/
def Partner (a b : (Fin (d + 1) → ℕ) × Fin (d + 1)) : Prop :=
  verts a.1 \ {a.1 a.2} = verts b.1 \ {b.1 b.2} ∧ a.1 a.2 ∉ verts b.1

theorem Partner.other {a b : (Fin (d + 1) → ℕ) × Fin (d + 1)} (h : Partner a b) : b.1 b.2 ∉ verts a.1 := by
  intro hb
  by_cases he : b.1 b.2 = a.1 a.2
  · exact h.2 (he ▸ mem_verts.2 ⟨b.2, rfl⟩)
  · have : b.1 b.2 ∈ verts a.1 \ {a.1 a.2} := Finset.mem_sdiff.2 ⟨hb, by simpa using he⟩
    rw [h.1] at this
    simp at this

theorem Partner.symm {a b : (Fin (d + 1) → ℕ) × Fin (d + 1)} (h : Partner a b) : Partner b a := ⟨h.1.symm, h.other⟩

theorem Partner.facet {a b : (Fin (d + 1) → ℕ) × Fin (d + 1)} (h : Partner a b) (ha : Function.Injective a.1) {k : Fin (d + 1)} (hk : k ≠ a.2) :
    a.1 k ∈ verts b.1 := by
  have : a.1 k ∈ verts a.1 \ {a.1 a.2} := Finset.mem_sdiff.2 ⟨mem_verts.2 ⟨k, rfl⟩, by simpa using fun e => hk (ha e)⟩
  rw [h.1] at this
  exact (Finset.mem_sdiff.1 this).1

/-- One element is the other one with the opposite vertex exchanged, up to the order of the vertices. -/
theorem Partner.perm {a b : (Fin (d + 1) → ℕ) × Fin (d + 1)} (h : Partner a b) (ha : Function.Injective a.1) (hb : Function.Injective b.1) :
    ∃ σ : Equiv.Perm (Fin (d + 1)), b.1 = Function.update a.1 a.2 (b.1 b.2) ∘ σ ∧ σ b.2 = a.2 := by
  obtain ⟨σ, hσ⟩ := perm_of_image (g := Function.update a.1 a.2 (b.1 b.2)) hb (by
    ext v
    constructor
    · intro hv
      by_cases hvb : v = b.1 b.2
      · exact mem_verts.2 ⟨a.2, by rw [Function.update_self, hvb]⟩
      · have : v ∈ verts b.1 \ {b.1 b.2} := Finset.mem_sdiff.2 ⟨hv, by simpa using hvb⟩
        rw [← h.1] at this
        obtain ⟨h1, h2⟩ := Finset.mem_sdiff.1 this
        obtain ⟨k, rfl⟩ := mem_verts.1 h1
        refine mem_verts.2 ⟨k, Function.update_of_ne ?_ _ _⟩
        rintro rfl
        simp at h2
    · intro hv
      obtain ⟨k, rfl⟩ := mem_verts.1 hv
      by_cases hk : k = a.2
      · subst hk
        rw [Function.update_self]
        exact mem_verts.2 ⟨b.2, rfl⟩
      · rw [Function.update_of_ne hk]
        exact h.facet ha hk)
  refine ⟨σ, hσ, ?_⟩
  have := congrFun hσ b.2
  rw [Function.comp_apply] at this
  by_contra hne
  rw [Function.update_of_ne hne] at this
  exact h.other (mem_verts.2 ⟨_, this.symm⟩)

omit [LinearOrder K] [IsStrictOrderedRing K] in
theorem update_perm (pos : ℕ → Fin d → K) {c c' : Fin (d + 1) → ℕ} {i j : Fin (d + 1)} {w : ℕ} {σ : Equiv.Perm (Fin (d + 1))} (h : c' = Function.update c i w ∘ σ)
    (hj : σ j = i) (y : Fin d → K) :
    Function.update (fun k => pos (c' k)) j y = Function.update (fun k => pos (c k)) i y ∘ σ := by
  funext k
  by_cases hk : k = j
  · subst hk
    rw [Function.update_self, Function.comp_apply, hj, Function.update_self]
  · have : σ k ≠ i := fun e => hk (σ.injective (e.trans hj.symm))
    rw [Function.update_of_ne hk, Function.comp_apply, Function.update_of_ne this, h, Function.comp_apply, Function.update_of_ne this]

section Mesh

variable {M : Mesh (Fin d → K) d} (hM : Conforming K M) (hp : Positive M)

include hM hp

/-- The order of the vertices changes by an odd permutation. -/
theorem Partner.odd {a b : (Fin (d + 1) → ℕ) × Fin (d + 1)} (h : Partner a b) (ha : a.1 ∈ M.cells) (hb : b.1 ∈ M.cells) :
    ∃ σ : Equiv.Perm (Fin (d + 1)), b.1 = Function.update a.1 a.2 (b.1 b.2) ∘ σ ∧ σ b.2 = a.2 ∧ Equiv.Perm.sign σ = -1 := by
  obtain ⟨σ, h1, h2⟩ := h.perm (hM.inj _ ha) (hM.inj _ hb)
  refine ⟨σ, h1, h2, ?_⟩
  rcases Int.units_eq_one_or (Equiv.Perm.sign σ) with hs | hs
  · exfalso
    refine same_side hM ha hb (fun k hk => h.facet (hM.inj _ ha) hk) h.other (hp _ ha) ?_
    have h3 := hp _ hb
    have h4 := update_perm M.pos h1 h2 (M.pos (b.1 b.2))
    rw [show Function.update (fun k => M.pos (b.1 k)) b.2 (M.pos (b.1 b.2)) = fun k => M.pos (b.1 k) from Function.update_eq_self _ _] at h4
    rw [h4, volume_perm, hs, one_smul] at h3
    exact h3
  · exact hs

/-- A facet belongs to at most two elements. -/
theorem Partner.unique (h1 : Once M) {a b b' : (Fin (d + 1) → ℕ) × Fin (d + 1)} (h : Partner a b) (h' : Partner a b') (ha : a.1 ∈ M.cells) (hb : b.1 ∈ M.cells)
    (hb' : b'.1 ∈ M.cells) : b = b' := by
  by_cases he : b.1 b.2 = b'.1 b'.2
  · have hv : verts b.1 = verts b'.1 := by
      have e1 := h.1.symm.trans h'.1
      have m1 : b.1 b.2 ∈ verts b.1 := mem_verts.2 ⟨_, rfl⟩
      have m2 : b'.1 b'.2 ∈ verts b'.1 := mem_verts.2 ⟨_, rfl⟩
      rw [← Finset.sdiff_union_of_subset (Finset.singleton_subset_iff.2 m1), ← Finset.sdiff_union_of_subset (Finset.singleton_subset_iff.2 m2), e1, he]
    have hc : b.1 = b'.1 := by
      by_contra hne
      have : Std.Symm fun c c' : Fin (d + 1) → ℕ => Set.range c ≠ Set.range c' := ⟨fun _ _ h e => h e.symm⟩
      refine List.Pairwise.forall h1 hb hb' hne ?_
      ext v
      have := Finset.ext_iff.1 hv v
      rwa [mem_verts, mem_verts] at this
    obtain ⟨c, j⟩ := b
    obtain ⟨c', j'⟩ := b'
    obtain rfl : c = c' := hc
    obtain rfl : j = j' := hM.inj c hb he
    rfl
  · exfalso
    obtain ⟨σ, s1, s2, s3⟩ := h.odd hM hp ha hb
    obtain ⟨τ, t1, t2, t3⟩ := h'.odd hM hp ha hb'
    have hbb : Partner b b' := by
      refine ⟨h.1.symm.trans h'.1, fun hmem => ?_⟩
      have : b.1 b.2 ∈ verts b'.1 \ {b'.1 b'.2} := Finset.mem_sdiff.2 ⟨hmem, by simpa using he⟩
      rw [← h'.1] at this
      exact h.other (Finset.mem_sdiff.1 this).1
    refine same_side hM hb hb' (fun k hk => hbb.facet (hM.inj _ hb) hk) hbb.other (hp _ hb) ?_
    have h3 := hp _ hb'
    have h4 := update_perm M.pos t1 t2 (M.pos (b'.1 b'.2))
    rw [show Function.update (fun k => M.pos (b'.1 k)) b'.2 (M.pos (b'.1 b'.2)) = fun k => M.pos (b'.1 k) from Function.update_eq_self _ _] at h4
    rw [h4, volume_perm, t3] at h3
    rw [update_perm M.pos s1 s2, volume_perm, s3]
    exact h3

/-- A sum over all facets of all elements vanishes if the two sides of inner facets cancel and the facets on the boundary do not count. -/
theorem sum_facets (h1 : Once M) {A : Type*} [AddCommGroup A] (f : (Fin (d + 1) → ℕ) × Fin (d + 1) → A)
    (hpair : ∀ a b, a.1 ∈ M.cells → b.1 ∈ M.cells → Partner a b → f a + f b = 0)
    (hbd : ∀ a, a.1 ∈ M.cells → (¬ ∃ b, b.1 ∈ M.cells ∧ Partner a b) → f a = 0) : (M.cells.map fun c => ∑ i, f (c, i)).sum = 0 := by
  classical
  have hnd : M.cells.Nodup := List.Pairwise.imp (fun h e => h (by rw [e])) h1
  rw [← List.sum_toFinset _ hnd, ← Finset.sum_product' _ _ fun c i => f (c, i)]
  let g : (Fin (d + 1) → ℕ) × Fin (d + 1) → (Fin (d + 1) → ℕ) × Fin (d + 1) := fun a =>
    if h : ∃ b, b.1 ∈ M.cells ∧ Partner a b then h.choose else a
  have hg : ∀ a, (∃ b, b.1 ∈ M.cells ∧ Partner a b) → (g a).1 ∈ M.cells ∧ Partner a (g a) := by
    intro a h
    simp only [g, dif_pos h]
    exact h.choose_spec
  have hg' : ∀ a, (¬ ∃ b, b.1 ∈ M.cells ∧ Partner a b) → g a = a := by
    intro a h
    simp only [g, dif_neg h]
  have hmem : ∀ a : (Fin (d + 1) → ℕ) × Fin (d + 1), a ∈ M.cells.toFinset ×ˢ (univ : Finset (Fin (d + 1))) ↔ a.1 ∈ M.cells := by
    intro a
    simp
  refine Finset.sum_involution (fun a _ => g a) ?_ ?_ ?_ ?_
  · intro a ha
    rw [hmem] at ha
    by_cases h : ∃ b, b.1 ∈ M.cells ∧ Partner a b
    · exact hpair a (g a) ha (hg a h).1 (hg a h).2
    · have e := hbd a ha h
      show f a + f (g a) = 0
      rw [hg' a h, e, add_zero]
  · intro a ha hne e
    rw [hmem] at ha
    by_cases h : ∃ b, b.1 ∈ M.cells ∧ Partner a b
    · have := (hg a h).2.2
      rw [e] at this
      exact this (mem_verts.2 ⟨_, rfl⟩)
    · exact hne (hbd a ha h)
  · intro a ha
    rw [hmem] at ha ⊢
    by_cases h : ∃ b, b.1 ∈ M.cells ∧ Partner a b
    · exact (hg a h).1
    · rw [hg' a h]; exact ha
  · intro a ha
    rw [hmem] at ha
    by_cases h : ∃ b, b.1 ∈ M.cells ∧ Partner a b
    · obtain ⟨m1, p1⟩ := hg a h
      have h2 : ∃ b, b.1 ∈ M.cells ∧ Partner (g a) b := ⟨a, ha, p1.symm⟩
      obtain ⟨m2, p2⟩ := hg (g a) h2
      exact Partner.unique hM hp h1 p2 p1.symm m1 m2 ha
    · show g (g a) = a
      rw [hg' a h, hg' a h]

omit hp in
/-- The vertices of a facet on the boundary are on the boundary. -/
theorem not_inner {a : (Fin (d + 1) → ℕ) × Fin (d + 1)} (ha : a.1 ∈ M.cells) (hb : ¬ ∃ b, b.1 ∈ M.cells ∧ Partner a b) {k : Fin (d + 1)} (hk : k ≠ a.2) :
    ¬ Inner M (a.1 k) := by
  intro hin
  have hinj := hM.inj _ ha
  obtain ⟨c', hc', hsub, hno⟩ := hin a.1 ha ⟨k, rfl⟩ a.2 fun e => hk (hinj e).symm
  have hinj' := hM.inj _ hc'
  have hcard : ∀ c : Fin (d + 1) → ℕ, Function.Injective c → (verts c).card = d + 1 := by
    intro c hc
    rw [verts, Finset.card_image_of_injective _ hc, Finset.card_univ, Fintype.card_fin]
  have hcF : ∀ (c : Fin (d + 1) → ℕ) (j : Fin (d + 1)), Function.Injective c → (verts c \ {c j}).card = d := by
    intro c j hc
    rw [Finset.card_sdiff_of_subset (Finset.singleton_subset_iff.2 (mem_verts.2 ⟨j, rfl⟩)), hcard c hc, Finset.card_singleton]
    rfl
  obtain ⟨v, hv, hv'⟩ : ∃ v ∈ verts c', v ∉ verts a.1 \ {a.1 a.2} := by
    by_contra h
    push Not at h
    have := Finset.card_le_card (show verts c' ⊆ verts a.1 \ {a.1 a.2} from h)
    rw [hcard c' hinj', hcF a.1 a.2 hinj] at this
    omega
  obtain ⟨j, rfl⟩ := mem_verts.1 hv
  refine hb ⟨(c', j), hc', ?_, fun h => ?_⟩
  · refine Finset.eq_of_subset_of_card_le (fun v hv2 => Finset.mem_sdiff.2 ⟨hsub hv2, ?_⟩) ?_
    · rw [Finset.mem_singleton]
      rintro rfl
      exact hv' hv2
    · rw [hcF a.1 a.2 hinj]
      exact (hcF c' j hinj').le
  · obtain ⟨l, hl⟩ := mem_verts.1 h
    exact hno l hl

end Mesh

/-! ## How often a point is covered -/

/-- The number of elements that contain a point in general position. -/
def total (M : Mesh (Fin d → K) d) (x : Fin d → K) : ℤ := (M.cells.map fun c => sign (fun i => M.pos (c i)) x).sum

theorem mem_inside {M : Mesh (Fin d → K) d} (hp : Positive M) {c : Fin (d + 1) → ℕ} (hc : c ∈ M.cells) {x : Fin d → K} :
    x ∈ inside M c ↔ ∀ i, 0 < signedVolume (Function.update (fun k => M.pos (c k)) i x) := open_iff (hp c hc)

theorem sign_cases {M : Mesh (Fin d → K) d} (hp : Positive M) (x : Fin d → K) : ∀ c ∈ M.cells, sign (fun i => M.pos (c i)) x = 0 ∨ sign (fun i => M.pos (c i)) x = 1 := by
  intro c hc
  rw [sign_of_pos (hp c hc)]
  split_ifs
  · exact Or.inr rfl
  · exact Or.inl rfl

theorem sign_inside {M : Mesh (Fin d → K) d} (hp : Positive M) {c : Fin (d + 1) → ℕ} (hc : c ∈ M.cells) {x : Fin d → K} :
    sign (fun i => M.pos (c i)) x = 1 ↔ x ∈ inside M c := by
  rw [mem_inside hp hc, sign_of_pos (hp c hc)]
  split_ifs with h
  · simp [h]
  · simp [h]

theorem total_pos {M : Mesh (Fin d → K) d} (hp : Positive M) {c : Fin (d + 1) → ℕ} (hc : c ∈ M.cells) {x : Fin d → K} (hx : x ∈ inside M c) : 0 < total M x := by
  unfold total
  have h1 := (sign_inside hp hc).2 hx
  have h2 := List.single_le_sum (l := M.cells.map fun c => sign (fun i => M.pos (c i)) x) (by
    intro k hk
    obtain ⟨c', hc', rfl⟩ := List.mem_map.1 hk
    rcases sign_cases hp x c' hc' with h | h <;> rw [h] <;> norm_num) _ (List.mem_map.2 ⟨c, hc, rfl⟩)
  omega

theorem total_zero {M : Mesh (Fin d → K) d} (hp : Positive M) {x : Fin d → K}
    (hx : ∀ c ∈ M.cells, ∃ i, signedVolume (Function.update (fun k => M.pos (c k)) i x) < 0) : total M x = 0 := by
  unfold total
  refine List.sum_eq_zero fun k hk => ?_
  obtain ⟨c, hc, rfl⟩ := List.mem_map.1 hk
  obtain ⟨i, hi⟩ := hx c hc
  rw [sign_of_pos (hp c hc), if_neg fun h => lt_asymm hi (h i)]

/-- The center of an element. -/
theorem center_inside {M : Mesh (Fin d → K) d} (hp : Positive M) {c : Fin (d + 1) → ℕ} (hc : c ∈ M.cells) :
    ∃ m, ∀ i, 0 < signedVolume (Function.update (fun k => M.pos (c k)) i m) := by
  have h3 : ∑ _i : Fin (d + 1), (1 / (d + 1) : K) = 1 := by
    rw [Finset.sum_const, Finset.card_univ, Fintype.card_fin, nsmul_eq_mul]
    have : ((d : K) + 1) ≠ 0 := by positivity
    push_cast
    field_simp
  refine ⟨∑ i, (1 / (d + 1) : K) • M.pos (c i), fun i => ?_⟩
  rw [volume_combination (fun k => M.pos (c k)) (fun _ => 1 / (d + 1)) h3]
  refine mul_pos ?_ (hp c hc)
  positivity

/-- Points between a point of an element and its center are inside. -/
theorem toward_center {p : Fin (d + 1) → Fin d → K} {x m : Fin d → K} {t : K} (ht0 : 0 < t) (ht1 : t ≤ 1) {i : Fin (d + 1)}
    (hx : 0 ≤ signedVolume (Function.update p i x)) (hm : 0 < signedVolume (Function.update p i m)) :
    0 < signedVolume (Function.update p i (x + t • (m - x))) := by
  rw [volume_line]
  have h1 := mul_pos ht0 hm
  have h2 := mul_nonneg (sub_nonneg.2 ht1) hx
  linarith [sub_mul 1 t (signedVolume (Function.update p i x)), mul_sub t (signedVolume (Function.update p i m)) (signedVolume (Function.update p i x))]

/-- Two meshes with the same counts cover the same domain. -/
theorem domain_subset {M M' : Mesh (Fin d → K) d} (hp : Positive M) (hp' : Positive M')
    (happ : ∀ z x, (∀ c ∈ M.cells, General (fun i => M.pos (c i)) z x) → (∀ c ∈ M'.cells, General (fun i => M'.pos (c i)) z x) → total M' x = total M x) :
    domain K M ⊆ domain K M' := by
  rintro x ⟨c, hc, hx⟩
  by_contra hx'
  have hcl := (closed_iff (hp c hc)).1 hx
  -- a facet of each element of `M'` that separates the point
  have hsep : ∀ c' ∈ M'.cells, ∃ i, signedVolume (Function.update (fun k => M'.pos (c' k)) i x) < 0 := by
    intro c' hc'
    by_contra hno
    push Not at hno
    exact hx' ⟨c', hc', (closed_iff (hp' c' hc')).2 hno⟩
  choose! sep hsep using hsep
  obtain ⟨m, hm⟩ := center_inside hp hc
  obtain ⟨t, ht0, ht1, ht⟩ := small_step (M'.cells.map fun c' => (- signedVolume (Function.update (fun k => M'.pos (c' k)) (sep c') x),
      - (signedVolume (Function.update (fun k => M'.pos (c' k)) (sep c') m) - signedVolume (Function.update (fun k => M'.pos (c' k)) (sep c') x)))) (by
    intro a ha
    obtain ⟨c', hc', rfl⟩ := List.mem_map.1 ha
    have := hsep c' hc'
    simp only
    linarith)
  obtain ⟨z, hz⟩ := exists_apex ((M.cells.map fun c i => M.pos (c i)) ++ M'.cells.map fun c i => M'.pos (c i)) (by
    intro p hpp
    rcases List.mem_append.1 hpp with h | h
    · obtain ⟨c, hc, rfl⟩ := List.mem_map.1 h
      exact hp c hc
    · obtain ⟨c, hc, rfl⟩ := List.mem_map.1 h
      exact hp' c hc)
  obtain ⟨y, hy, hgen⟩ := hz (((List.finRange (d + 1)).map fun i => fun x => signedVolume (Function.update (fun k => M.pos (c k)) i x)) ++
      M'.cells.map fun c' => fun x => - signedVolume (Function.update (fun k => M'.pos (c' k)) (sep c') x)) (x + t • (m - x)) (by
    intro f hf
    rcases List.mem_append.1 hf with h | h
    · obtain ⟨i, -, rfl⟩ := List.mem_map.1 h
      exact ⟨affine_volume _ i, toward_center ht0 ht1 (hcl i) (hm i)⟩
    · obtain ⟨c', hc', rfl⟩ := List.mem_map.1 h
      refine ⟨(affine_volume _ _).neg, ?_⟩
      have := ht t ht0 (le_refl _) _ (List.mem_map.2 ⟨c', hc', rfl⟩)
      simp only at this ⊢
      rw [volume_line]
      linarith)
  have e := happ z y (fun c hc => hgen _ (List.mem_append.2 (Or.inl (List.mem_map.2 ⟨c, hc, rfl⟩))))
    (fun c hc => hgen _ (List.mem_append.2 (Or.inr (List.mem_map.2 ⟨c, hc, rfl⟩))))
  have e1 := total_pos hp hc ((mem_inside hp hc).2 fun i => hy _ (List.mem_append.2 (Or.inl (List.mem_map.2 ⟨i, List.mem_finRange i, rfl⟩))))
  have e2 := total_zero hp' (x := y) fun c' hc' => ⟨sep c', by
    have : 0 < - signedVolume (Function.update (fun k => M'.pos (c' k)) (sep c') y) := hy _ (List.mem_append.2 (Or.inr (List.mem_map.2 ⟨c', hc', rfl⟩)))
    linarith⟩
  omega

theorem sum_ge_two {α : Type*} (f : α → ℤ) {l : List α} (h0 : ∀ a ∈ l, 0 ≤ f a) {a b : α} (ha : a ∈ l) (hb : b ∈ l) (hab : a ≠ b) (fa : f a = 1)
    (fb : f b = 1) : 2 ≤ (l.map f).sum := by
  induction l with
  | nil => simp at ha
  | cons c l ih =>
    have hs : ∀ d ∈ l, f d ≤ (l.map f).sum := fun d hd => List.single_le_sum (by
      intro k hk
      obtain ⟨e, he, rfl⟩ := List.mem_map.1 hk
      exact h0 e (by simp [he])) _ (List.mem_map.2 ⟨d, hd, rfl⟩)
    rw [List.map_cons, List.sum_cons]
    rw [List.mem_cons] at ha hb
    rcases ha with rfl | ha <;> rcases hb with rfl | hb
    · exact absurd rfl hab
    · have := hs b hb
      omega
    · have := hs a ha
      omega
    · have := ih (fun d hd => h0 d (by simp [hd])) ha hb
      have := h0 c (by simp)
      omega

theorem sum_le_one {α : Type*} (f : α → ℤ) {l : List α} (h0 : ∀ a ∈ l, f a = 0 ∨ f a = 1) (hl : l.Pairwise fun a b => ¬ (f a = 1 ∧ f b = 1)) :
    (l.map f).sum ≤ 1 := by
  induction l with
  | nil => simp
  | cons c l ih =>
    rw [List.map_cons, List.sum_cons]
    rw [List.pairwise_cons] at hl
    rcases h0 c (by simp) with h | h
    · rw [h, zero_add]
      exact ih (fun d hd => h0 d (by simp [hd])) hl.2
    · have : (l.map f).sum = 0 := by
        refine List.sum_eq_zero fun k hk => ?_
        obtain ⟨d, hd, rfl⟩ := List.mem_map.1 hk
        rcases h0 d (by simp [hd]) with h' | h'
        · exact h'
        · exact absurd ⟨h, h'⟩ (hl.1 d hd)
      rw [h, this]
      norm_num

/-- In a conforming mesh the elements are disjoint inside. -/
theorem disjoint_inside {M : Mesh (Fin d → K) d} (hM : Conforming K M) {c c' : Fin (d + 1) → ℕ} (hc : c ∈ M.cells) (hc' : c' ∈ M.cells)
    (hne : Set.range c ≠ Set.range c') (x : Fin d → K) (hx : x ∈ inside M c) (hx' : x ∈ inside M c') : False := by
  have key : ∀ c ∈ M.cells, x ∈ inside M c → ∃ w : ℕ → K, IsWeight (verts c) w ∧ ∑ v ∈ verts c, w v • M.pos v = x ∧ ∀ v, v ∈ verts c ↔ w v ≠ 0 := by
    intro c hc hx
    obtain ⟨w, h0, h1, h2⟩ := hx
    have hinj := hM.inj c hc
    obtain ⟨u, hu, hu0⟩ := exists_extension hinj w
    refine ⟨u, ⟨fun v => ?_, hu0, ?_⟩, ?_, fun v => ?_⟩
    · by_cases hv : v ∈ verts c
      · obtain ⟨i, rfl⟩ := mem_verts.1 hv
        rw [hu]
        exact (h0 i).le
      · rw [hu0 v hv]
    · rw [sum_verts hinj, ← h1]
      exact Finset.sum_congr rfl fun i _ => hu i
    · rw [sum_verts hinj fun v => u v • M.pos v, ← h2]
      exact Finset.sum_congr rfl fun i _ => by rw [hu]
    · constructor
      · intro hv
        obtain ⟨i, rfl⟩ := mem_verts.1 hv
        rw [hu]
        exact (h0 i).ne'
      · intro hv
        by_contra hn
        exact hv (hu0 v hn)
  obtain ⟨w, hw, hwx, hws⟩ := key c hc hx
  obtain ⟨w', hw', hwx', hws'⟩ := key c' hc' hx'
  have := hM.unique c hc c' hc' w w' hw hw' (hwx.trans hwx'.symm)
  subst this
  apply hne
  ext v
  have := (hws v).trans (hws' v).symm
  rw [mem_verts, mem_verts] at this
  exact this

/-- Two elements that overlap have a point in general position in common. -/
theorem common_point {M M' : Mesh (Fin d → K) d} (hp : Positive M) (hp' : Positive M') {c c' : Fin (d + 1) → ℕ} (hc : c ∈ M'.cells) (hc' : c' ∈ M'.cells)
    {x : Fin d → K} (hx : x ∈ inside M' c) (hx' : x ∈ inside M' c') :
    ∃ z y, (∀ c ∈ M.cells, General (fun i => M.pos (c i)) z y) ∧ (∀ c ∈ M'.cells, General (fun i => M'.pos (c i)) z y) ∧
      y ∈ inside M' c ∧ y ∈ inside M' c' := by
  have a := (mem_inside hp' hc).1 hx
  have b := (mem_inside hp' hc').1 hx'
  obtain ⟨z, hz⟩ := exists_apex ((M.cells.map fun c i => M.pos (c i)) ++ M'.cells.map fun c i => M'.pos (c i)) (by
    intro p hpp
    rcases List.mem_append.1 hpp with h | h
    · obtain ⟨c, hc, rfl⟩ := List.mem_map.1 h
      exact hp c hc
    · obtain ⟨c, hc, rfl⟩ := List.mem_map.1 h
      exact hp' c hc)
  obtain ⟨y, hy, hgen⟩ := hz (((List.finRange (d + 1)).map fun i => fun x => signedVolume (Function.update (fun k => M'.pos (c k)) i x)) ++
      (List.finRange (d + 1)).map fun i => fun x => signedVolume (Function.update (fun k => M'.pos (c' k)) i x)) x (by
    intro f hf
    rcases List.mem_append.1 hf with h | h
    · obtain ⟨i, -, rfl⟩ := List.mem_map.1 h
      exact ⟨affine_volume _ i, a i⟩
    · obtain ⟨i, -, rfl⟩ := List.mem_map.1 h
      exact ⟨affine_volume _ i, b i⟩)
  exact ⟨z, y, fun c hc => hgen _ (List.mem_append.2 (Or.inl (List.mem_map.2 ⟨c, hc, rfl⟩))),
    fun c hc => hgen _ (List.mem_append.2 (Or.inr (List.mem_map.2 ⟨c, hc, rfl⟩))),
    (mem_inside hp' hc).2 fun i => hy _ (List.mem_append.2 (Or.inl (List.mem_map.2 ⟨i, List.mem_finRange i, rfl⟩))),
    (mem_inside hp' hc').2 fun i => hy _ (List.mem_append.2 (Or.inr (List.mem_map.2 ⟨i, List.mem_finRange i, rfl⟩)))⟩

attribute [local irreducible] sign

theorem total_two {M : Mesh (Fin d → K) d} (hp : Positive M) {c c' : Fin (d + 1) → ℕ} (hc : c ∈ M.cells) (hc' : c' ∈ M.cells)
    (hne : Set.range c ≠ Set.range c') {y : Fin d → K} (hy : y ∈ inside M c) (hy' : y ∈ inside M c') : 2 ≤ total M y := by
  unfold total
  refine sum_ge_two (fun c => sign (fun i => M.pos (c i)) y) (l := M.cells) (fun c hc => ?_) hc hc' (fun e => hne (by rw [e])) ((sign_inside hp hc).2 hy)
    ((sign_inside hp hc').2 hy')
  rcases sign_cases hp y c hc with h | h <;> rw [h]
  exact zero_le_one

theorem total_le_one {M : Mesh (Fin d → K) d} (hM : Conforming K M) (hp : Positive M) (h1 : Once M) (y : Fin d → K) : total M y ≤ 1 := by
  unfold total
  refine sum_le_one (fun c => sign (fun i => M.pos (c i)) y) (l := M.cells) (sign_cases hp y) (List.Pairwise.imp_of_mem ?_ h1)
  rintro c c' hc hc' hne ⟨e1, e2⟩
  exact disjoint_inside hM hc hc' hne y ((sign_inside hp hc).1 e1) ((sign_inside hp hc').1 e2)

section Main

variable {M : Mesh (Fin d → K) d} {shift : ℕ → Fin d → K} (hM : Conforming K M) (hp : Positive M) (h1 : Once M)
  (hs : ∀ v ∈ vertices M, ¬ Inner M v → shift v = 0) (hp' : Positive (moved M shift))

include hM hp h1 hs

/-- The sum over all facets, joined with a fixed point, of a quantity that changes its sign with the orientation. -/
theorem sum_moved {A : Type*} [AddCommGroup A] (Φ : (Fin (d + 1) → Fin d → K) → A)
    (hΦ : ∀ p (σ : Equiv.Perm (Fin (d + 1))), Equiv.Perm.sign σ = -1 → Φ (p ∘ σ) = - Φ p) (z : Fin d → K) :
    (M.cells.map fun c => ∑ i, Φ (Function.update (fun k => (moved M shift).pos (c k)) i z)).sum =
      (M.cells.map fun c => ∑ i, Φ (Function.update (fun k => M.pos (c k)) i z)).sum := by
  have := sum_facets hM hp h1 (fun a => Φ (Function.update (fun k => (moved M shift).pos (a.1 k)) a.2 z) - Φ (Function.update (fun k => M.pos (a.1 k)) a.2 z)) (by
    intro a b ha hb hab
    obtain ⟨σ, s1, s2, s3⟩ := hab.odd hM hp ha hb
    rw [update_perm (moved M shift).pos s1 s2, update_perm M.pos s1 s2, hΦ _ σ s3, hΦ _ σ s3]
    abel) (by
    intro a ha hb
    have : Function.update (fun k => (moved M shift).pos (a.1 k)) a.2 z = Function.update (fun k => M.pos (a.1 k)) a.2 z := by
      funext k
      by_cases hk : k = a.2
      · subst hk; rw [Function.update_self, Function.update_self]
      · rw [Function.update_of_ne hk, Function.update_of_ne hk]
        simp only [moved]
        rw [hs _ ⟨a.1, ha, k, rfl⟩ (not_inner hM ha hb hk), add_zero]
    simp only [this, sub_self])
  rw [← sub_eq_zero, ← this]
  clear this hs
  induction M.cells with
  | nil => simp
  | cons c l ih =>
    simp only [List.map_cons, List.sum_cons, Finset.sum_sub_distrib] at ih ⊢
    rw [← ih]
    abel

include hp' in
/-- **C191** If no vertex on the boundary is moved and all elements have positive volume after the movement, the total volume does not change. -/
theorem C191_area : totalVolume (moved M shift) = totalVolume M := by
  have := sum_moved hM hp h1 hs signedVolume (fun p σ hσ => by rw [volume_perm, hσ]; simp) 0
  have e : ∀ p : Fin (d + 1) → Fin d → K, 0 < signedVolume p → ∑ i, signedVolume (Function.update p i 0) = signedVolume p := by
    intro p hp
    obtain ⟨w, hw, hx⟩ := exists_weights hp.ne' 0
    rw [← hx, Finset.sum_congr rfl fun i _ => volume_combination p w hw i, ← Finset.sum_mul, hw, one_mul]
  unfold totalVolume
  rw [List.map_congr_left fun c hc => (e _ (hp' c hc)).symm]
  refine this.trans ?_
  rw [List.map_congr_left fun c hc => e _ (hp c hc)]

include hp'

/-- The number of elements that contain a point in general position is not changed. -/
theorem count_moved (z x : Fin d → K) (hg : ∀ c ∈ M.cells, General (fun i => M.pos (c i)) z x)
    (hg' : ∀ c ∈ M.cells, General (fun i => (moved M shift).pos (c i)) z x) : total (moved M shift) x = total M x := by
  have := sum_moved hM hp h1 hs (fun p => sign p x) (fun p σ hσ => by rw [sign_perm, hσ]; simp) z
  unfold total
  rw [List.map_congr_left fun c hc => sign_cone (hp' c hc) (hg' c hc)]
  refine this.trans ?_
  rw [List.map_congr_left fun c hc => (sign_cone (hp c hc) (hg c hc)).symm]

/-- **C191** If no vertex on the boundary is moved and all elements have positive volume after the movement, the mesh covers the same domain. -/
theorem C191_domain : domain K (moved M shift) = domain K M :=
  Set.Subset.antisymm (domain_subset hp' hp fun z x hg hg' => (count_moved hM hp h1 hs hp' z x hg' hg).symm)
    (domain_subset hp hp' fun z x hg hg' => count_moved hM hp h1 hs hp' z x hg hg')

/-- **C191** Under the same conditions the elements do not overlap. -/
theorem C191_disjoint {c c' : Fin (d + 1) → ℕ} (hc : c ∈ M.cells) (hc' : c' ∈ M.cells) (hne : Set.range c ≠ Set.range c') :
    Disjoint (inside (moved M shift) c) (inside (moved M shift) c') := by
  rw [Set.disjoint_left]
  intro x hx hx'
  obtain ⟨z, y, hg, hg', hy, hy'⟩ := common_point hp hp' (c := c) (c' := c') hc hc' hx hx'
  have e := count_moved hM hp h1 hs hp' z y hg hg'
  have h2 := total_two hp' (show c ∈ (moved M shift).cells from hc) (show c' ∈ (moved M shift).cells from hc') hne hy hy'
  rw [e] at h2
  exact absurd (h2.trans (total_le_one hM hp h1 y)) (by norm_num)

end Main

end Verif.MoveGeo
