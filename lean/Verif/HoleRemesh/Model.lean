import Mathlib.Algebra.Order.Field.Basic
import Mathlib.Data.List.Rotate

/-!
# Remeshing of a hole with a constraint (cgal/triangulationwrapper.hh)

Used when an interface vertex is removed in 2d (mmesh.hh: `removeFromInterface_`). Numbers are elements of an arbitrary ordered
field; rounding is not modelled.
-/

namespace Verif.HoleRemesh

variable {K : Type} [Field K] [LinearOrder K] {V : Type} [DecidableEq V]

/-- `Plane::signedDistance` (cgal/triangulationwrapper.hh:14-40) for the plane through `a` and `b`, without the division by the norm (which is positive if the
points differ). -/
def signedDistance (a b x : K × K) : K := -(a.2 - b.2) * (x.1 - a.1) + (a.1 - b.1) * (x.2 - a.2)

/-- An entry of the lists of facets: a facet of the hole, given by its two vertices in the order of the hole (CGAL's
`vertex(cw(i))`, `vertex(ccw(i))`, so `vertex((i + 1) % 3)` is the second one), or the helper facet. (Models:
cgal/triangulationwrapper.hh:67-104.) -/
inductive Entry (V : Type)
  | facet (start stop : V)
  | helper
  deriving DecidableEq

/-- The local variables of `remeshHoleConstrained` (cgal/triangulationwrapper.hh:69-76). -/
structure State (V : Type) where
  hole1 : List (Entry V) := []
  hole2 : List (Entry V) := []
  left : Option V := none
  right : Option V := none

/-- The body of the loop over the facets of the hole (cgal/triangulationwrapper.hh:82-103); `dist` is the signed distance of a vertex, `c0` and `c1` are the
vertices of the constraint. -/
def place (dist : V → K) (c0 c1 : V) (s : State V) (f : V × V) : State V :=
  if f.2 = c0 ∨ f.2 = c1 then
    if dist f.1 > 0 then { s with hole1 := s.hole1 ++ [.facet f.1 f.2, .helper], left := some f.2 }
    else { s with hole2 := s.hole2 ++ [.facet f.1 f.2, .helper], right := some f.2 }
  else if dist f.2 > 0 then { s with hole1 := s.hole1 ++ [.facet f.1 f.2] }
  else { s with hole2 := s.hole2 ++ [.facet f.1 f.2] }

/-- The loop (cgal/triangulationwrapper.hh:82-103). -/
def classify (dist : V → K) (c0 c1 : V) (hole : List (V × V)) : State V := hole.foldl (place dist c0 c1) {}

/-- The vertices of an entry, where the helper face was given the vertices (none, `p`, `q`) by `set_vertices`: its
facet 0 leads from
`vertex(cw(0)) = q` to `vertex(ccw(0)) = p`. (Models: cgal/triangulationwrapper.hh:106, 110.) -/
def Entry.vertices (p q : V) : Entry V → V × V
  | .facet a b => (a, b)
  | .helper => (q, p)

/-- The two polygons passed to CGAL's `fill_hole` (cgal/triangulationwrapper.hh:105-111): `set_vertices(none, right, left)` for the first, `set_vertices(none,
left, right)` for the second. `none` if `left` or `right` was never assigned. -/
def polygons (s : State V) : Option (List (V × V) × List (V × V)) :=
  match s.left, s.right with
  | some l, some r => some (s.hole1.map (Entry.vertices r l), s.hole2.map (Entry.vertices l r))
  | _, _ => none

/-! ## Gluing -/

/-- The neighbour of a new face: another face or the helper face. (Models: cgal/triangulationwrapper.hh:116-132.) -/
inductive Nbr
  | face (n : Nat)
  | helper
  deriving DecidableEq

/-- Neighbours of the faces: `nbr f i`. (Models: cgal/triangulationwrapper.hh:116-132.) -/
abbrev Nbrs := Nat → Fin 3 → Nbr

/-- State of the two nested loops (cgal/triangulationwrapper.hh:114-132): the first face found with its index, and whether the loop was left by `return`. -/
structure Glue where
  nbr : Nbrs
  first : Option (Nat × Fin 3) := none
  done : Bool := false

/-- The body (cgal/triangulationwrapper.hh:117-131). -/
def glueStep (g : Glue) (fi : Nat × Fin 3) : Glue :=
  if g.done then g
  else if g.nbr fi.1 fi.2 = .helper then
    match g.first with
    | none => { g with first := some fi }
    | some f1 =>
      let n1 : Nbrs := fun f i => if f = fi.1 ∧ i = fi.2 then .face f1.1 else g.nbr f i
      let n2 : Nbrs := fun f i => if f = f1.1 ∧ i = f1.2 then .face fi.1 else n1 f i
      { nbr := n2, first := g.first, done := true }
  else g

/-- The loops over the new faces (cgal/triangulationwrapper.hh:116-132); `none` is the exception (cgal/triangulationwrapper.hh:134). -/
def glue (elements : List Nat) (nbr : Nbrs) : Option Nbrs :=
  let g := (elements.flatMap fun f => [(f, (0 : Fin 3)), (f, 1), (f, 2)]).foldl glueStep { nbr := nbr }
  if g.done then some g.nbr else none

end Verif.HoleRemesh
