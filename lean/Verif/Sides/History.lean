import Verif.Sides.GridProps
import Verif.Sides.Regions

/-!
# Sides of the interface during adaptations and movements (2D)
-/

namespace Verif.Sides

open Finset Verif.Refine Verif.MoveGeo

/-- What a program does between changes of the interface: insertions and removals in `adapt`, and movements (`moveInterface`, `moveVertices`, mmesh.hh:1407-1430) after which all elements
have positive area and which leave the boundary as it is. -/
inductive Act (g : Grid) : Grid → Prop
  | adapt {g'} : Step g g' → Act g g'
  | move {pos : ℕ → Fin 2 → ℝ} : (∀ c ∈ g.M.cells, 0 < signedVolume fun i => pos (c i)) → (∀ v ∈ vertices g.M, ¬ Inner g.M v → pos v = g.M.pos v) →
      Act g ⟨{ g.M with pos := pos }, g.s⟩

theorem act_valid {g g' : Grid} (h : Valid g) (ha : Act g g') : Valid g' := by
  cases ha with
  | adapt hs => exact step_valid h hs
  | @move pos hp hb => exact ⟨⟨(result (pos := pos) h.mesh.conforming h.mesh.once h.mesh.positive hp hb).1, hp, h.mesh.once⟩, h.edges, h.ok⟩

theorem act_domain {g g' : Grid} (h : Valid g) (ha : Act g g') : domain ℝ g'.M = domain ℝ g.M := by
  cases ha with
  | adapt hs => exact (step_mesh h hs).2
  | @move pos hp hb => exact (result (pos := pos) h.mesh.conforming h.mesh.once h.mesh.positive hp hb).2

theorem run_valid {g g' : Grid} (h : Valid g) (hr : Relation.ReflTransGen Step g g') :
    Valid g' ∧ domain ℝ g'.M = domain ℝ g.M ∧ interfaceSet g'.M (interface g'.s) = interfaceSet g.M (interface g.s) := by
  induction hr with
  | refl => exact ⟨h, rfl, rfl⟩
  | tail _ hs ih =>
    obtain ⟨h1, h2, h3⟩ := ih
    exact ⟨step_valid h1 hs, (step_mesh h1 hs).2.trans h2, (step_interface h1 hs).trans h3⟩

/-- **C203** After any insertions and removals, two points are on the same side of the interface if and only if they were before: the elements in whose interior they lie are connected
through facets that are not interface elements. -/
theorem C203_adapt {g g' : Grid} (h : Valid g) (hr : Relation.ReflTransGen Step g g') {c₁ c₂ c₁' c₂' : Fin 3 → ℕ} (h₁ : c₁ ∈ g.M.cells) (h₂ : c₂ ∈ g.M.cells) (h₁' : c₁' ∈ g'.M.cells)
    (h₂' : c₂' ∈ g'.M.cells) {x y : Fin 2 → ℝ} (hx : x ∈ inside g.M c₁) (hx' : x ∈ inside g'.M c₁') (hy : y ∈ inside g.M c₂) (hy' : y ∈ inside g'.M c₂') :
    SameSide g'.M (interface g'.s) c₁' c₂' ↔ SameSide g.M (interface g.s) c₁ c₂ := by
  obtain ⟨hv, hd, hi⟩ := run_valid h hr
  exact C202_same (by decide) h.mesh hv.mesh (facets_of h) (facets_of hv) hd hi h₁ h₂ h₁' h₂' hx hx' hy hy'

/-- **C203** … and the parts of the domain that the sides fill are the same. -/
theorem C203_regions {g g' : Grid} (h : Valid g) (hr : Relation.ReflTransGen Step g g') :
    {R | ∃ A ∈ sides g'.M (interface g'.s), R = region g'.M A} = {R | ∃ A ∈ sides g.M (interface g.s), R = region g.M A} := by
  obtain ⟨hv, hd, hi⟩ := run_valid h hr
  exact C202_regions (by decide) h.mesh hv.mesh (facets_of h) (facets_of hv) hd hi

/-- **C203** Adaptations and movements in any order leave the number of sides unchanged. -/
theorem C203_number {g g' : Grid} (h : Valid g) (hr : Relation.ReflTransGen Act g g') :
    Valid g' ∧ domain ℝ g'.M = domain ℝ g.M ∧ (sides g'.M (interface g'.s)).ncard = (sides g.M (interface g.s)).ncard := by
  induction hr with
  | refl => exact ⟨h, rfl, rfl⟩
  | tail _ hs ih =>
    obtain ⟨h1, h2, h3⟩ := ih
    refine ⟨act_valid h1 hs, (act_domain h1 hs).trans h2, Eq.trans ?_ h3⟩
    cases hs with
    | adapt hs =>
      obtain ⟨hv, hd, hi⟩ := run_valid h1 (Relation.ReflTransGen.single hs)
      exact C202_number (by decide) h1.mesh hv.mesh (facets_of h1) (facets_of hv) hd hi
    | move hp hb => rfl

end Verif.Sides
