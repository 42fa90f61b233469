import Verif.Implicit.Model
import Mathlib.Algebra.Order.Field.Basic

/-!
# Structured grids (grid/structuredgridfactory.hh)

`dim` is the length of the lists; the dimension of the world is the same (grids of MMesh are full dimensional). Numbers are elements of an ordered field;
rounding is not modelled. `numVertices` is an unbounded natural number (an `int` in the code).
-/

namespace Verif.Implicit

variable {K : Type} [Field K]

/-- `MultiIndex::operator++` of dune-grid (dune/grid/utility/multiindex.hh): the first entry is incremented, with carry. -/
def increment : List Nat → List Nat → List Nat
  | l :: limits, i :: index => if i + 1 < l then (i + 1) :: index else 0 :: increment limits index
  | _, _ => []

/-- `MultiIndex::cycle` of dune-grid: the product of the limits. -/
def cycle (limits : List Nat) : Nat := limits.foldl (· * ·) 1

/-- structuredgridfactory.hh:89-93: the position of a multi-index; `vertices[j] - 1` is the number of elements. -/
def position (lowerLeft upperRight : List K) (elements index : List Nat) : List K :=
  match lowerLeft, upperRight, elements, index with
  | l :: ll, u :: ur, n :: ns, i :: is => (l + (i : K) * (u - l) / (((n + 1 - 1 : Nat)) : K)) :: position ll ur ns is
  | _, _, _, _ => []

/-- structuredgridfactory.hh:86-97: the loop; `m` passes are left. -/
def vertexLoop (lowerLeft upperRight : List K) (elements vertices : List Nat) : Nat → List Nat → List (Call (List K))
  | 0, _ => []
  | m + 1, index => .insertVertex (position lowerLeft upperRight elements index) :: vertexLoop lowerLeft upperRight elements vertices m (increment vertices index)

/-- structuredgridfactory.hh:72-100 `createStructuredGrid`: the calls of the implicit factory. -/
def structuredCalls (lowerLeft upperRight : List K) (elements : List Nat) : List (Call (List K)) :=
  let vertices := elements.map (· + 1)
  vertexLoop lowerLeft upperRight elements vertices (cycle vertices) (vertices.map fun _ => 0)

end Verif.Implicit
