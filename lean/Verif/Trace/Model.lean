import Verif.RefElem.Props
import Verif.Normals.Props
import Mathlib.LinearAlgebra.Matrix.NonsingularInverse

/-!
# Skeleton and trace functions (model)

python/dune/mmesh/_skeletontrace.py, dune/python/mmesh/pyskeletontrace.hh, dune/python/mmesh/utility.hh and the movement
functions of python/dune/mmesh/_utility.py. The bulk grid has dimension `m + 1`, the interface grid dimension `m`.
`double` is modelled by an ordered field. Discrete functions of dune-fem are arbitrary functions of local coordinates.
-/

namespace Verif.Trace

open RefElem

/-- The triangulation as far as it is read here; a cell handle is a number. `ins` is `info().insertionIndex`, `segs`
the
keys of `interfaceSegments_`, `pos` the position of a vertex and `flag` its `info().isInterface`, by id. (Models:
mmesh.hh:1811 `hostgrid_`, cgal/defaults.hh:26-38.) -/
structure Grid (m : ℕ) (V : Type*) where
  cell : ℕ → Cell (m + 1)
  inf : ℕ → Bool
  nbr : ℕ → Fin (m + 2) → ℕ
  mirror : ℕ → Fin (m + 2) → Fin (m + 2)
  ins : ℕ → ℕ
  segs : List (List ℕ)
  pos : ℕ → V
  flag : ℕ → Bool

/-- A host facet: cell and slot of the vertex opposite to it. (Models: interface/grid.hh `MMeshInterfaceEntity<0>`,
CGAL `Edge`/`Facet`.) -/
abbrev Facet (m : ℕ) := ℕ × Fin (m + 2)

variable {K V R : Type*} {m : ℕ}

/-- mmesh.hh:607-616: the sorted vertex ids of the facet. They are also the id of the interface element. -/
def key (g : Grid m V) (h : Facet m) : List ℕ :=
  sortIds ((List.finRange (m + 1)).map fun i => (g.cell h.1).ids (h.2 + i.succ))

/-- mmesh.hh:585-622 `isInterface`: all vertices are interface vertices and the key is in `interfaceSegments_`. (The
buffer for the key is `static`; calls from several threads are the subject of C181.) -/
def isInterface (g : Grid m V) (h : Facet m) : Bool := (key g h).all g.flag && decide (key g h ∈ g.segs)

/-- interface/grid.hh:600-613 `mirrorHostEntity`. -/
def mirrorFacet (g : Grid m V) (h : Facet m) : Facet m := (g.nbr h.1 h.2, g.mirror h.1 h.2)

/-- interface/entity.hh:372-392 constructor of an interface element from a host facet (`asInterfaceEntity`,
mmesh.hh:662-665): the facet seen from the cell with the smaller insertion number. -/
def asInterfaceEntity (g : Grid m V) (h : Facet m) : Facet m :=
  if g.ins h.1 > g.ins (g.nbr h.1 h.2) then mirrorFacet g h else h

/-- mmesh.hh:687-696 `asIntersection`. -/
def asIntersection (g : Grid m V) (h : Facet m) : Facet m :=
  if g.inf h.1 then mirrorFacet g h else h

section geo
variable [Field K] [AddCommGroup V] [Module K V]

/-- Geometry of an element (geometry.hh:76-86, 168-176). -/
def elementGlobal (g : Grid m V) (c : ℕ) (x : Fin (m + 1) → K) : V :=
  affineGlobal (elementCorner (g.cell c) (g.pos ∘ (g.cell c).ids)) x

/-- Geometry of an interface element (interface/geometry.hh:73-83, 128-143). -/
def ielementGlobal (g : Grid m V) (h : Facet m) (ξ : Fin m → K) : V :=
  affineGlobal (fun k : Fin (m + 1) =>
    (interfaceCorners (g.cell h.1).ids (g.pos ∘ (g.cell h.1).ids) h.2).getD k.val 0) ξ

/-- Corners of the local geometry of facet number `i`: `loc i`. It is `localFacetCorner2` or `localFacetCorner3`
(geometry.hh:106-111, 216-223), see `Props.lean`. -/
abbrev LocalGeo (K : Type*) (m : ℕ) := ℕ → Fin (m + 1) → Fin (m + 1) → K

/-- intersections.hh:147-181: `geometryInInside()` (`indexInInside`) and `geometryInOutside()` (`indexInOutside`,
computed from the mirrored facet). The latter asserts that there is a neighbour. -/
def sideIndex (g : Grid m V) (h : Facet m) (inside : Bool) : Option ℕ :=
  if inside then some (cgalFacetToDuneFacet (m + 1) (g.cell h.1).c h.2)
  else if g.inf (g.nbr h.1 h.2) then none
  else some (cgalFacetToDuneFacet (m + 1) (g.cell (mirrorFacet g h).1).c (mirrorFacet g h).2)

/-- `global` of a local facet geometry. (Models: dune-geometry; dune/python/mmesh/pyskeletontrace.hh:162.) -/
def sideGlobal (loc : LocalGeo K m) (i : ℕ) (ξ : Fin m → K) : Fin (m + 1) → K := affineGlobal (loc i) ξ

/-- The transposed Jacobian of a local facet geometry. (Models: dune-geometry;
dune/python/mmesh/pyskeletontrace.hh:167-177.) -/
def sideJac (loc : LocalGeo K m) (i : ℕ) : Matrix (Fin m) (Fin (m + 1)) K :=
  Matrix.of fun k j => loc i k.succ j - loc i 0 j

/-- `local` of a local facet geometry. `AffineGeometry` (dune-geometry) applies the right pseudo inverse of the
transposed Jacobian `A`: `ξ = (A Aᵀ)⁻¹ A (x - p₀)`. -/
noncomputable def sideLocal (loc : LocalGeo K m) (i : ℕ) (x : Fin (m + 1) → K) : Fin m → K :=
  let A := sideJac loc i
  Matrix.mulVec (A * A.transpose)⁻¹ (Matrix.mulVec A (x - loc i 0))

/-! ### SkeletonGF -/

/-- State of a skeleton function (pyskeletontrace.hh:88-91): `onInterface_`, the interface element bound to `ilf_`, the
facet number of `sideGeometry_`. -/
structure Skeleton where
  onInterface : Bool
  bound : List ℕ
  side : ℕ

/-- pyskeletontrace.hh:37-41. The default `sideGeometry_` is modelled by number 0; it is not read before a bind. -/
def Skeleton.new : Skeleton := ⟨false, [], 0⟩

/-- The two ways to bind. (Models: dune/python/mmesh/pyskeletontrace.hh:43-55.) -/
inductive Bind (m : ℕ)
  | entity (c : ℕ)
  | intersection (h : Facet m) (inside : Bool)

/-- pyskeletontrace.hh:43-55; `none`: the assertion in `geometryInOutside` is violated. -/
def Skeleton.bind (g : Grid m V) (st : Skeleton) : Bind m → Option Skeleton
  | .entity _ => some st
  | .intersection h inside =>
    if isInterface g h then
      (sideIndex g h inside).map fun i => ⟨true, key g (asInterfaceEntity g h), i⟩
    else some { st with onInterface := false }

/-- Any sequence of binds. (Models: no code of its own: a history.) -/
def Skeleton.binds (g : Grid m V) (st : Skeleton) : List (Bind m) → Option Skeleton
  | [] => some st
  | b :: bs => (st.bind g b).bind fun st' => st'.binds g bs

/-- pyskeletontrace.hh:57-66 `evaluate`; `jacobian` (68-76) and `hessian` (78-86) are the same with another quantity of
the interface function. `f` is the interface function, by id of the interface element and local coordinate. -/
noncomputable def Skeleton.evaluate [Zero R] (loc : LocalGeo K m) (f : List ℕ → (Fin m → K) → R) (st : Skeleton)
    (x : Fin (m + 1) → K) : R :=
  if st.onInterface then f st.bound (sideLocal loc st.side x) else 0

/-- utility.hh:39-55 `InterfaceIndicator::evaluate`: same binds, the value is one on the interface. -/
def indicator [Zero R] [One R] (st : Skeleton) : R := if st.onInterface then 1 else 0

/-! ### TraceGF -/

/-- pyskeletontrace.hh:139-155: the cell `blf_` is bound to and the facet number of `sideGeometry_`; `none`: exception.
The argument is the host facet of the interface element. -/
def traceBind (g : Grid m V) (inside : Bool) (h : Facet m) : Option (ℕ × ℕ) :=
  let is := asIntersection g h
  if inside then (sideIndex g is true).map fun i => (is.1, i)
  else if g.inf (g.nbr is.1 is.2) then none
  else (sideIndex g is false).map fun i => (g.nbr is.1 is.2, i)

/-- pyskeletontrace.hh:157-164 `evaluate`; `u` is the bulk function by cell and local coordinate. -/
def trace (g : Grid m V) (loc : LocalGeo K m) (u : ℕ → (Fin (m + 1) → K) → R) (inside : Bool) (h : Facet m)
    (ξ : Fin m → K) : Option R :=
  (traceBind g inside h).map fun p => u p.1 (sideGlobal loc p.2 ξ)

/-! ### Normals -/

/-- utility.hh:104-111 `Normals::bind` in 2D, before the normalisation: the outer normal of the intersection behind the
interface element with host facet `h`. `X` is the position of a vertex, by id. -/
def normals2 (g : Grid 1 V) (X : ℕ → Normals.V2 K) (h : Facet 1) : Normals.V2 K :=
  Normals.bulkNormal2 (X ∘ (g.cell (asIntersection g h).1).ids) (asIntersection g h).2

/-- utility.hh:104-111 in 3D. -/
def normals3 (g : Grid 2 V) (X : ℕ → Normals.V3 K) (h : Facet 2) : Normals.V3 K :=
  Normals.bulkNormal3 (X ∘ (g.cell (asIntersection g h).1).ids) (asIntersection g h).2

/-! ### movement functions -/

/-- _utility.py:215-230 `edgeMovement`: the shift of an interface vertex is `shifts[index]`, that of other vertices
zero. `none`: an index is out of range (undefined behaviour in the code). `idx` is the index of an interface vertex. -/
def vertexShift (g : Grid m V) (idx : ℕ → ℕ) (shifts : List V) (id : ℕ) : Option V :=
  if g.flag id then shifts[idx id]? else some 0

/-- _utility.py:215-230: linear interpolation of the shifts of the corners. -/
def edgeMovement (g : Grid m V) (idx : ℕ → ℕ) (shifts : List V) (c : ℕ) (x : Fin (m + 1) → K) : Option V :=
  ((List.finRange (m + 2)).mapM fun i => vertexShift g idx shifts ((g.cell c).ids ((g.cell c).c i))).map
    fun l => affineGlobal (fun k : Fin (m + 2) => l.getD k.val 0) x

/-- _utility.py:274-284 `interfaceEdgeMovement`. -/
def interfaceEdgeMovement (g : Grid m V) (idx : ℕ → ℕ) (shifts : List V) (h : Facet m) (ξ : Fin m → K) : Option V :=
  ((interfaceIndices (g.cell h.1).ids h.2).mapM fun s => shifts[idx ((g.cell h.1).ids s)]?).map
    fun l => affineGlobal (fun k : Fin (m + 1) => l.getD k.val 0) ξ

end geo

end Verif.Trace
