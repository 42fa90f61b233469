import Verif.Sides.Props
import Mathlib.Data.Set.Card

/-!
# The regions and the number of the sides
-/

namespace Verif.Sides

open Finset Verif.Refine Verif.MoveGeo

variable {d : ℕ}

/-- The sides of the interface, each as the set of its elements. -/
def sides (M : Mesh (Fin d → ℝ) d) (I : Finset ℕ → Prop) : Set (Set (Fin (d + 1) → ℕ)) := {A | ∃ c ∈ M.cells, A = {c' | SameSide M I c c'}}

/-- The points of a set of elements. -/
def region (M : Mesh (Fin d → ℝ) d) (A : Set (Fin (d + 1) → ℕ)) : Set (Fin d → ℝ) := {x | ∃ c ∈ M.cells, c ∈ A ∧ x ∈ convexHull ℝ (Set.range fun i => M.pos (c i))}

/-- Near every point of an element that an open set contains, there is a point inside an element of the other mesh, too. -/
theorem common_point {M M' : Mesh (Fin d → ℝ) d} (hM : Proper ℝ M) (hM' : Proper ℝ M') (hdom : domain ℝ M ⊆ domain ℝ M') {c : Fin (d + 1) → ℕ} (hc : c ∈ M.cells)
    {U : Set (Fin d → ℝ)} (hU : IsOpen U) {x : Fin d → ℝ} (hxU : x ∈ U) (hx : x ∈ convexHull ℝ (Set.range fun i => M.pos (c i))) :
    ∃ c' ∈ M'.cells, ∃ y ∈ U, y ∈ inside M c ∧ y ∈ inside M' c' := by
  have hI : Facets M fun _ => False := fun _ h => h.elim
  have hI' : Facets M' fun _ => False := fun _ h => h.elim
  obtain ⟨z, hzU, hz⟩ := mem_closure_iff.1 (closure_inside hM hI hc hx) U hU hxU
  obtain ⟨c', hc', hz'⟩ := hdom ⟨c, hc, inside_closed hM hI hz⟩
  obtain ⟨y, ⟨hyU, hy⟩, hy'⟩ := mem_closure_iff.1 (closure_inside hM' hI' hc' hz') _ (hU.inter (open_inside hM.positive hc)) ⟨hzU, hz⟩
  exact ⟨c', hc', y, hyU, hy, hy'⟩

section
variable (hd : 0 < d) {M M' : Mesh (Fin d → ℝ) d} {I I' : Finset ℕ → Prop} (hM : Proper ℝ M) (hM' : Proper ℝ M') (hI : Facets M I) (hI' : Facets M' I')
  (hdom : domain ℝ M' = domain ℝ M)
  (hint : {p | ∃ F, I' F ∧ p ∈ convexHull ℝ (M'.pos '' (F : Set ℕ))} = {p | ∃ F, I F ∧ p ∈ convexHull ℝ (M.pos '' (F : Set ℕ))})
include hd hM hM' hI hI' hdom hint

theorem region_subset {c c' : Fin (d + 1) → ℕ} (hc : c ∈ M.cells) (hc' : c' ∈ M'.cells) {x : Fin d → ℝ} (hx : x ∈ inside M c) (hx' : x ∈ inside M' c') :
    region M {e | SameSide M I c e} ⊆ region M' {e | SameSide M' I' c' e} := by
  rintro z ⟨e, he, hs, hz⟩
  have hcl := closed_union M' (fun e => e ∈ {e | SameSide M' I' c' e})
  refine hcl.closure_subset_iff.2 (Set.Subset.refl _) (mem_closure_iff.2 fun U hU hzU => ?_)
  obtain ⟨e', he', y, hyU, hy, hy'⟩ := common_point hM hM' hdom.symm.subset he hU hzU hz
  have hside := (C202_same hd hM hM' hI hI' hdom hint hc he hc' he' hx hx' hy hy').2 hs
  exact ⟨y, hyU, e', he', hside, inside_closed hM' hI' hy'⟩

/-- **C202** Two meshes of the same domain whose interfaces consist of the same points have the same sides: the parts of the domain that the sides fill are the same. -/
theorem C202_regions : {R | ∃ A ∈ sides M' I', R = region M' A} = {R | ∃ A ∈ sides M I, R = region M A} := by
  apply Set.Subset.antisymm
  · rintro R ⟨A, ⟨c', hc', rfl⟩, rfl⟩
    obtain ⟨x, hx⟩ := center_inside hM'.positive hc'
    rw [← mem_inside hM'.positive hc'] at hx
    obtain ⟨c, hc, y, -, hy', hy⟩ := common_point hM' hM hdom.subset hc' isOpen_univ (Set.mem_univ x) (inside_closed hM' hI' hx)
    exact ⟨_, ⟨c, hc, rfl⟩, Set.Subset.antisymm (region_subset hd hM' hM hI' hI hdom.symm hint.symm hc' hc hy' hy) (region_subset hd hM hM' hI hI' hdom hint hc hc' hy hy')⟩
  · rintro R ⟨A, ⟨c, hc, rfl⟩, rfl⟩
    obtain ⟨x, hx⟩ := center_inside hM.positive hc
    rw [← mem_inside hM.positive hc] at hx
    obtain ⟨c', hc', y, -, hy, hy'⟩ := common_point hM hM' hdom.symm.subset hc isOpen_univ (Set.mem_univ x) (inside_closed hM hI hx)
    exact ⟨_, ⟨c', hc', rfl⟩, Set.Subset.antisymm (region_subset hd hM hM' hI hI' hdom hint hc hc' hy hy') (region_subset hd hM' hM hI' hI hdom.symm hint.symm hc' hc hy' hy)⟩

end

/-- Different sides fill different parts of the domain. -/
theorem region_inj {M : Mesh (Fin d → ℝ) d} (hM : Proper ℝ M) (I : Finset ℕ → Prop) : Set.InjOn (region M) (sides M I) := by
  have hI : Facets M fun _ => False := fun _ h => h.elim
  have sub : ∀ A ∈ sides M I, ∀ B ∈ sides M I, region M A ⊆ region M B → A ⊆ B := by
    rintro A ⟨a, ha, rfl⟩ B ⟨b, hb, rfl⟩ h c hc
    have hcM := SameSide.mem hc ha
    obtain ⟨x, hx⟩ := center_inside hM.positive hcM
    rw [← mem_inside hM.positive hcM] at hx
    obtain ⟨e, he, hbe, hxe⟩ := h ⟨c, hcM, hc, inside_closed hM hI hx⟩
    have : verts c ⊆ verts e := by
      obtain ⟨w, h0, h1, hwx⟩ := hx
      obtain ⟨u, hu, hu0⟩ := exists_extension (hM.conforming.inj c hcM) w
      have hin : Inside M.pos (verts c) x u := by
        refine ⟨⟨fun v => ?_, hu0, ?_⟩, fun v hv => ?_, ?_⟩
        · by_cases hv : v ∈ verts c
          · obtain ⟨i, rfl⟩ := mem_verts.1 hv
            rw [hu]
            exact (h0 i).le
          · rw [hu0 v hv]
        · rw [sum_verts (hM.conforming.inj c hcM), ← h1]
          exact Finset.sum_congr rfl fun i _ => hu i
        · obtain ⟨i, rfl⟩ := mem_verts.1 hv
          rw [hu]
          exact h0 i
        · rw [sum_verts (hM.conforming.inj c hcM) fun v => u v • M.pos v, ← hwx]
          exact Finset.sum_congr rfl fun i _ => by rw [hu]
      exact carrier_subset hM.conforming hcM he (Finset.Subset.refl _) (Finset.Subset.refl _) hin (by rwa [← range_image])
    have hv := Finset.eq_of_subset_of_card_le this (by rw [card_verts (hM.conforming.inj c hcM), card_verts (hM.conforming.inj e he)])
    rw [eq_of_verts hM.once hcM he hv]
    exact hbe
  intro A hA B hB h
  exact Set.Subset.antisymm (sub A hA B hB h.subset) (sub B hB A hA h.symm.subset)

/-- **C202** … and equally many. -/
theorem C202_number (hd : 0 < d) {M M' : Mesh (Fin d → ℝ) d} {I I' : Finset ℕ → Prop} (hM : Proper ℝ M) (hM' : Proper ℝ M') (hI : Facets M I) (hI' : Facets M' I')
    (hdom : domain ℝ M' = domain ℝ M)
    (hint : {p | ∃ F, I' F ∧ p ∈ convexHull ℝ (M'.pos '' (F : Set ℕ))} = {p | ∃ F, I F ∧ p ∈ convexHull ℝ (M.pos '' (F : Set ℕ))}) :
    (sides M' I').ncard = (sides M I).ncard := by
  have h := C202_regions hd hM hM' hI hI' hdom hint
  have e : ∀ (M : Mesh (Fin d → ℝ) d) (I : Finset ℕ → Prop), {R | ∃ A ∈ sides M I, R = region M A} = region M '' sides M I := by
    intro M I
    ext R
    exact ⟨fun ⟨A, hA, hR⟩ => ⟨A, hA, hR.symm⟩, fun ⟨A, hA, hR⟩ => ⟨A, hA, hR.symm⟩⟩
  rw [e, e] at h
  rw [← (region_inj hM' I').ncard_image, h, (region_inj hM I).ncard_image]

/-- There are finitely many sides, so that their number means something. -/
theorem sides_finite (M : Mesh (Fin d → ℝ) d) (I : Finset ℕ → Prop) : (sides M I).Finite := by
  refine ((M.cells.finite_toSet).image fun c => {c' | SameSide M I c c'}).subset ?_
  rintro A ⟨c, hc, rfl⟩
  exact ⟨c, hc, rfl⟩

end Verif.Sides
