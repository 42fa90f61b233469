import Verif.BoundaryIds.Props

/-!
# Insertion indices of boundary segments (property C173)
-/

namespace Verif.BoundaryIds

open Verif RefElem Segments

/-- explicitgridfactory.hh:365-368 and implicitgridfactory.hh:237-240 `insertionIndex` of an intersection: its boundary id. -/
def insertionIndex (g : Grid) (vertices : List Nat) : Nat := boundaryId g vertices

/-- The calls `insertBoundarySegment` of a user, without calls of `addBoundaryId`; `none` if one of them throws. -/
def insertAll (f : Factory) : List (List Nat) → Option Factory
  | [] => some f
  | vs :: l =>
    match step f.segs (.insertBoundarySegment vs) with
    | .ok s => insertAll { f with segs := s } l
    | _ => none

/-- **C173** (not guaranteed): whatever boundary segments a user inserts, all have the insertion index 0 unless the user also adds boundary ids. -/
theorem C173_zero_false (n : Nat) (segments : List (List Nat)) (bf : List Key) {f : Factory}
    (h : insertAll (dgfVertices n) segments = some f) (vs : List Nat) : insertionIndex (serialGrid f bf) vs = 0 := by
  have key : ∀ (l : List (List Nat)) (g : Factory), g.boundaryIds = [] → ∀ f, insertAll g l = some f → f.boundaryIds = [] := by
    intro l
    induction l with
    | nil =>
      intro g hg f hf
      cases hf
      exact hg
    | cons vs l ih =>
      intro g hg f hf
      unfold insertAll at hf
      split at hf
      · refine ih _ ?_ f hf
        exact hg
      · cases hf
  have h0 := key segments _ rfl f h
  simp [insertionIndex, boundaryId, serialGrid, h0, Map.find]

/-- **C173** for the four sides of a square: the last one was inserted as number 3 and has this boundary segment index, but its insertion index is 0. -/
theorem C173_square_false : ∃ f, insertAll (dgfVertices 4) [[0, 1], [1, 2], [2, 3], [3, 0]] = some f ∧
    boundarySegmentIndex (serialGrid f []) [3, 0] = 3 ∧ insertionIndex (serialGrid f []) [3, 0] = 0 := ⟨_, rfl, by decide, by decide⟩

/-- **C173** for the square of a DGF file with boundary ids: the insertion indices are the ids of the file, not the numbers of the segments. -/
theorem C173_dgf_false : ∃ f, dgfFaces (dgfVertices 4) square = some f ∧ boundarySegmentIndex (serialGrid f []) [0, 1] = 0 ∧
    insertionIndex (serialGrid f []) [0, 1] = 1 := ⟨_, rfl, by decide, by decide⟩

end Verif.BoundaryIds
