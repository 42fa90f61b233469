import Verif.Incident.Model
import Mathlib.Analysis.Real.Sqrt

/-!
# The boundary flag of a vertex (model of remeshing/longestedgerefinement.hh:115-151)

`double` is modelled by the real numbers. `circ v` is the list of vertices that CGAL's circulator runs through at vertex `v`; the infinite vertex is
`none`. The flag stored in the vertex (cgal/defaults.hh:46) is an integer, `-1` before the first call.
-/

namespace Verif.BoundaryFlag

variable {d : Nat}

/-- longestedgerefinement.hh:115-121 `atBoundary`: the infinite vertex is among the incident vertices. The iteration (grid/incidentiterator.hh) visits what
the circulator gives, see `Incident.incidentVertices`. -/
def atBoundary (circ : Nat → List (Option Nat)) (v : Nat) : Bool := (circ v).any fun w => w.isNone

/-- longestedgerefinement.hh:130-132: the finite incident vertices that are on the boundary. -/
def incidentAtBoundary (circ : Nat → List (Option Nat)) (v : Nat) : List Nat := ((circ v).filterMap id).filter (atBoundary circ)

/-- `two_norm` of dune-common (used in longestedgerefinement.hh:143-145). -/
noncomputable def norm (x : Fin d → ℝ) : ℝ := Real.sqrt (∑ i, x i ^ 2)

/-- longestedgerefinement.hh:139-144: the unit vector from vertex `a` to vertex `v`. -/
noncomputable def direction (pos : Nat → Fin d → ℝ) (v a : Nat) : Fin d → ℝ :=
  fun i => (pos v i - pos a i) / norm (fun i => pos v i - pos a i)

/-- longestedgerefinement.hh:123-151 `boundaryFlag`: `stored` is the flag in the vertex; the result is what is returned, which is also stored. `none`: fewer than two
incident vertices on the boundary (the assertion in line 138, and elements of the vector that do not exist). -/
noncomputable def boundaryFlag (circ : Nat → List (Option Nat)) (pos : Nat → Fin d → ℝ) (stored : Int) (v : Nat) : Option Int :=
  open Classical in
  if stored = -1 then
    if atBoundary circ v then
      match incidentAtBoundary circ v with
      | [a, b] =>
        if norm (fun i => direction pos v a i + direction pos v b i) > 1 / 10 ^ 8 ∧
            norm (fun i => direction pos v a i - direction pos v b i) > 1 / 10 ^ 8 then some 1
        else some 0
      | _ :: _ :: _ :: _ => some 0
      | _ => none
    else some 0
  else some stored

end Verif.BoundaryFlag
