import Verif.Refine.Global

/-!
# Refinement on several processes (model)

Every process holds the whole triangulation. `adapt()` visits the elements that are present on the process (`elements(this->leafGridView())`, its own elements and its ghosts), makes requests for
those that are marked, and carries out its own requests on its own triangulation. The requests are not communicated.
-/

namespace Verif.AdaptParallel

open Verif.Refine

variable {K V : Type*} [Field K] [LinearOrder K] [AddCommGroup V] [Module K V] {d : ℕ}

/-- The requests made by `adapt()` on a process (mmesh.hh:826-852): the loop over the elements that are present there and marked. The requests of the interface grid (866-914) and for coarsening
(855-864) are left out. -/
def requestsOn (K : Type*) [Field K] [LinearOrder K] [Module K V] (len : V → V → K) (edges : List (Fin (d + 1) × Fin (d + 1))) (isInterface : ℕ → ℕ → Bool) (mark present : (Fin (d + 1) → ℕ) → Bool)
    (M : Mesh V d) : List (Req V) := markedRequests len edges isInterface M (M.cells.filter fun c => mark c && present c) []

/-- The elements that `computePartitions` (partitionhelper.hh:201-237) makes present on process `p`: interior elements and, as ghosts, elements with a facet in common with an interior element. The
interface may add further ghosts (partitionhelper.hh:240, 366-401). -/
def presentOn (owner : (Fin (d + 1) → ℕ) → ℕ) (M : Mesh V d) (p : ℕ) (c : Fin (d + 1) → ℕ) : Bool :=
  decide (owner c = p) || M.cells.any fun c' => decide (owner c' = p) && decide ((Finset.univ.image c ∩ Finset.univ.image c').card = d)

end Verif.AdaptParallel
