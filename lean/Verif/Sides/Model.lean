import Verif.Sides.Star
import Mathlib.Analysis.Convex.Topology

/-!
# The sides of the interface

Programs that use different coefficients or different unknowns on the two sides of the interface go from element to element through the intersections and stop at
those for which `isInterface` is true. The elements that can be reached are the side of the interface the first element belongs to.
-/

namespace Verif.Sides

open Finset Verif.Refine Verif.MoveGeo

variable {K : Type} {d : ℕ}

/-- Two elements that have a facet in common which is not an interface element: for one of the intersections of `c` (grid/intersections.hh:78-214) the element outside is `c'`, and
`isInterface(intersection)` (mmesh.hh:595-624, the facet is looked up in the list of interface segments) is false. A facet is given by the ids of its vertices, `I` says which facets
belong to the interface. -/
def Through (M : Mesh (Fin d → K) d) (I : Finset ℕ → Prop) (c c' : Fin (d + 1) → ℕ) : Prop :=
  c ∈ M.cells ∧ c' ∈ M.cells ∧ ∃ F : Finset ℕ, F.card = d ∧ F ⊆ verts c ∧ F ⊆ verts c' ∧ ¬ I F

/-- One comes from `c` to `c'` without going through the interface. (Models: no code of its own: a loop of the user.)
-/
def SameSide (M : Mesh (Fin d → K) d) (I : Finset ℕ → Prop) : (Fin (d + 1) → ℕ) → (Fin (d + 1) → ℕ) → Prop := Relation.ReflTransGen (Through M I)

/-- The points of the interface. (Models: no code of its own.) -/
def interfaceSet (M : Mesh (Fin d → ℝ) d) (I : Finset ℕ → Prop) : Set (Fin d → ℝ) := {x | ∃ F, I F ∧ x ∈ convexHull ℝ (M.pos '' (F : Set ℕ))}

/-- The interface consists of facets of the mesh (mmesh.hh:374-392: `addInterface` takes an intersection; C30 for what adaptation does with them). -/
def Facets (M : Mesh (Fin d → K) d) (I : Finset ℕ → Prop) : Prop := ∀ F, I F → F.card = d ∧ ∃ c ∈ M.cells, F ⊆ verts c

/-- The points of the domain that are neither on its boundary nor on the interface. (Models: no code of its own.) -/
def free (M : Mesh (Fin d → ℝ) d) (I : Finset ℕ → Prop) : Set (Fin d → ℝ) := interior (domain ℝ M) \ interfaceSet M I

end Verif.Sides
