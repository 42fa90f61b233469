import Verif.InterfaceIndexSet.Neighbours
import Verif.RefElem.Props
import Mathlib.Data.Fin.VecNotation

/-!
# Geometries of the interface grid and of its intersections (model)

An interface element is the list of the ids of its vertices in slot order, as in `InterfaceIndexSet`; `pt v` is the position of the
vertex with id `v`. `m` is the dimension of the interface grid (1 or 2), the world has dimension `m + 1`. A geometry is given by its corners;
the map of dune-geometry's `AffineGeometry` is `RefElem.affineGlobal`.
-/

namespace Verif.InterfaceGeo

open RefElem InterfaceIndexSet

variable {V : Type*}

/-- The positions of a list of `n` vertices as the corners of a geometry; no result if the length is wrong (does not
occur, the code has arrays
of fixed length). (Models: interface/geometry.hh:45-60, 103-120.) -/
def cornersOf (n : Nat) (pt : Nat → V) (l : List Nat) : Option (Fin n → V) :=
  if h : l.length = n then some fun k => pt (l[k.val]'(by rw [h]; exact k.isLt)) else none

/-- interface/geometry.hh:72-85, 127-143 `getVertices` of an element: the corners in the order of `computeCGALIndices`
(interface/common.hh:16-38), that is, sorted by id. -/
def elementCorners (m : Nat) (pt : Nat → V) (e : List Nat) : Option (Fin (m + 1) → V) := cornersOf (m + 1) pt (sortIds e)

/-- interface/geometry.hh:145-160 `getVertices` of an edge in 3D: the two vertices are swapped if the ids decrease. A single vertex
(interface/geometry.hh:53-59) is kept. -/
def swapById : List Nat → List Nat
  | [a, b] => if a > b then [b, a] else [a, b]
  | l => l

/-- interface/intersections.hh:249-263 `geometry()` of an intersection: the corners of facet `i` of the element. The vertices are selected
by the same expressions as in the constructor (78-93), modelled by `facetIds`. -/
def intersectionCorners (m : Nat) (pt : Nat → V) (e : List Nat) (i : Nat) : Option (Fin m → V) :=
  (facetIds (m + 1) e i).bind fun f => cornersOf m pt (swapById f)

/-- interface/entity.hh:586-625 `subEntity<1>(i)` of an element: a vertex (2D) or an edge (3D), given by its vertices. -/
def subEntity (m : Nat) (e : List Nat) (i : Nat) : Option (List Nat) :=
  let s := sortIds e
  if m = 1 then (s[i]?).map fun a => [a]
  else do
    let a ← s[if i = 2 then 1 else 0]?
    let b ← s[if i = 0 then 1 else 2]?
    pure [a, b]

/-- interface/entity.hh:95-114 `equals` of vertices and of edges. Vertex handles are compared by their ids (they are unique, C03). -/
def facetEquals : List Nat → List Nat → Bool
  | [a], [b] => a == b
  | [a, b], [c, d] => (a == c && b == d) || (a == d && b == c)
  | _, _ => false

/-- interface/intersections.hh:269-279 `indexInOutside`: the first facet of the outside element `o` that equals facet `i` of the inside element;
`none` if an exception is thrown. -/
def indexInOutside (m : Nat) (e : List Nat) (i : Nat) (o : List Nat) : Option Nat :=
  (subEntity m e i).bind fun f =>
    (List.range (m + 1)).find? fun j => match subEntity m o j with
      | some g => facetEquals g f
      | none => false

section Local

variable (K : Type*) [Field K]

/-- interface/geometry.hh:180-182: the local geometry of facet `i` of a segment is the point `i`. -/
def localCorners1 (i : Nat) : Fin 1 → Fin 1 → K := fun _ _ => (i : K)

/-- interface/geometry.hh:61-67: the local geometry of facet `i` of a triangle. -/
def localCorners2 (i : Nat) : Fin 2 → Fin 2 → K :=
  ![![if i = 2 then 1 else 0, 0], ![if i = 0 then 1 else 0, if i > 0 then 1 else 0]]

end Local

end Verif.InterfaceGeo
