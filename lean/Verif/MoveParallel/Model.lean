import Verif.Movement.Model
import Verif.PartIter.Model

/-!
# Movement of the mesh on several processes

Every process holds the whole triangulation, but the iterators of a process only visit the entities that are present there (`PartIter`), and only the positions of these
vertices are written. There is no communication.
-/

namespace Verif.MoveParallel

open Verif Parallel PartIter

/-- The mesh with its vertices: `verts` is CGAL's iteration over the finite vertices, `star v` are the elements and `istar v` the interface elements at a vertex;
`index` and `iindex` are the leaf indices on every process. (Models: grid/leafiterator.hh:140-196, interface/leafiterator.hh:115-170.) -/
structure Net where
  mesh : Mesh
  verts : List Nat
  star : Nat → List Nat
  istar : Nat → List Nat
  index : Nat → Nat → Nat
  iindex : Nat → Nat → Nat

/-- `vertices(leafGridView())` on process `p` (grid/leafiterator.hh:140-196, 368-431; partition of the vertices: partitionhelper.hh:306-332). -/
def vertices (n : Net) (p : Nat) : List Nat := items (fun v => vertexPart (compute n.mesh p) (n.star v)) .all n.verts

/-- `vertices(interfaceGrid().leafGridView())` on process `p` (interface/leafiterator.hh:115-170, 325-379; partition of the vertices: partitionhelper.hh:405-442 in 2D,
445-467 in 3D). The flag `isInterface` of a vertex is that it has interface elements. -/
def interfaceVertices (n : Net) (p : Nat) : List Nat :=
  items (fun v => if n.istar v = [] then -1 else interfaceVertexPart (compute n.mesh p) (n.istar v)) .all n.verts

/-- A call of `moveVertices` or `moveInterface` on all processes, with the vector passed on each of them. (Models: no code of its own.) -/
structure Call (P : Type) where
  onInterface : Bool
  shifts : Nat → List P

section
variable {P : Type} [Add P]

/-- `moveInterface` (mmesh.hh:1407-1416) and `moveVertices` (1421-1430) on process `p`. -/
def move (n : Net) (p : Nat) (c : Call P) (pos : Nat → P) : Option (Nat → P) :=
  if c.onInterface then Movement.moveList (n.iindex p) (c.shifts p) (interfaceVertices n p) pos
  else Movement.moveList (n.index p) (c.shifts p) (vertices n p) pos

/-- Any number of calls, as process `p` sees them. (Models: no code of its own.) -/
def run (n : Net) (p : Nat) : List (Call P) → (Nat → P) → Option (Nat → P)
  | [], pos => some pos
  | c :: cs, pos => (move n p c pos).bind (run n p cs)

end

end Verif.MoveParallel
