import Verif.InterfaceIter.Model
import Verif.RefElem.Model
import Verif.Clip.Model

/-!
# Entity objects: comparison, copies, seeds, geometry in the father (model)

An entity object stores a handle of the host grid and, for elements, a cached id, corners and a pointer to a father. The host grid
is a triangulation `T` (`Verif.Tri.Basic`); a cell handle is the position of a cell. The host grid changes during adaptation, the
objects of the user do not: functions that read through the handle get the triangulation of that moment as an argument.
A null handle is `none`.
-/

namespace Verif.Entity

open Tri Factory InterfaceIter

variable {d : Nat}

/-! ### Facets and edges -/

/-- CGAL's `mirror_edge` (2D) and `mirror_facet` (3D): the neighbour and the number of the facet there. No result if
there is no
neighbour (null handle, undefined). Simplification: the number is found by comparing vertices. (Models: CGAL, not part
of /repo; used in grid/entity.hh:122, 132.) -/
def mirror (T : Tri d) (f : Nat × Fin (d + 1)) : Option (Nat × Fin (d + 1)) :=
  match T.nbr f.1 f.2 with
  | none => none
  | some m =>
    match (List.finRange (d + 1)).find? (fun j => decide (T.facet m j = T.facet f.1 f.2)) with
    | some j => some (m, j)
    | none => none

/-- grid/entity.hh:117-124 `equals` of edges in 2D: equal handles, or the mirror image of this one is the other one. -/
def edgeEquals2 (T : Tri 2) (a b : Nat × Fin 3) : Option Bool :=
  if a = b then some true else (mirror T a).map fun m => decide (m = b)

/-- grid/entity.hh:126-133 `equals` of facets in 3D: equal handles, or this one is the mirror image of the other one. -/
def facetEquals3 (T : Tri 3) (a b : Nat × Fin 4) : Option Bool :=
  if a = b then some true else (mirror T b).map fun m => decide (a = m)

/-- grid/entity.hh:135-144 `equals` of edges in 3D and interface/entity.hh:102-113 `equals` of edges of the interface of a 3D grid:
the handles are a cell and the numbers of two vertices. -/
def edgeEquals3 (T : Tri 3) (a b : Nat × Fin 4 × Fin 4) : Option Bool :=
  match T.cells[a.1]?, T.cells[b.1]? with
  | some c, some c' =>
    let v0 := c a.2.1
    let v1 := c a.2.2
    let w0 := c' b.2.1
    let w1 := c' b.2.2
    some (decide ((v0 = w0 ∧ v1 = w1) ∨ (v0 = w1 ∧ v1 = w0)))
  | _, _ => none

/-- interface/entity.hh:372-392, 442-455: the constructors replace the handle, `equals` of interface elements compares handles. -/
def interfaceEquals (g : Grid d) (a b : Nat × Fin (d + 1)) : Bool := decide (canonical g a.1 a.2 = canonical g b.1 b.2)

/-- An entity object of codimension 1 (grid/entity.hh:375-382): handle and cached id (`none`: not computed). -/
structure Facet (d : Nat) where
  host : Nat × Fin (d + 1)
  id : Option (List Nat)
deriving DecidableEq

/-- grid/entity.hh:82-87: a new object. -/
def Facet.new (f : Nat × Fin (d + 1)) : Facet d := ⟨f, none⟩

/-- grid/entity.hh:89-109: copy constructor and assignment do not copy `id_`. An assignment leaves the cached id of the target
(`keep`); a copy construction starts without. -/
def Facet.copy (o : Facet d) (keep : Option (List Nat)) : Facet d := ⟨o.host, keep⟩

/-- grid/entity.hh:350-362 `id()`: computed from the vertices at the first call; the object afterwards and the answer. A host cell that
does not exist is undefined. -/
def Facet.getId (T : Tri d) (o : Facet d) : Option (Facet d × List Nat) :=
  match o.id with
  | some i => some (o, i)
  | none =>
    match T.cells[o.host.1]? with
    | some c =>
      let i := RefElem.sortIds (((List.finRange (d + 1)).filter (· ≠ o.host.2)).filterMap c)
      some ({ o with id := some i }, i)
    | none => none

/-- grid/entity.hh:150 and mmesh.hh:442-452: the entity made from the seed of an entity. -/
def Facet.fromSeed (o : Facet d) : Facet d := Facet.new o.host

/-! ### Elements -/

variable {K : Type}

/-- The corners of a triangle. (Models: no code of its own.) -/
abbrev Corners (K : Type) := (K × K) × (K × K) × (K × K)

/-- An element object (grid/entity.hh:725-742). `vertex` and `father` have no initialiser: `none` is an indeterminate value. The father
is represented by the corners of its geometry. -/
structure Elem (K : Type) where
  host : Option Nat
  id : Option (List Nat)
  isLeaf : Bool
  vertex : Option (Corners K)
  father : Option (Corners K)

/-- grid/entity.hh:441-445: an element of the leaf grid. -/
def Elem.leaf (h : Nat) : Elem K := ⟨some h, none, true, none, none⟩

/-- The ids of the vertices of a cell, sorted (grid/entity.hh:703-714). Elements have no infinite vertices; the id of the infinite vertex is
left out here. -/
def cellId (T : Tri d) (h : Nat) : Option (List Nat) :=
  match T.cells[h]? with
  | some c => some (RefElem.sortIds ((List.finRange (d + 1)).filterMap c))
  | none => none

/-- grid/entity.hh:451-456: a triangle of a cut set; the id is the same for all, `(-4, -3, -2)` as unsigned 64 bit numbers. -/
def Elem.middle (c : Corners K) : Elem K :=
  ⟨none, some [2 ^ 64 - 4, 2 ^ 64 - 3, 2 ^ 64 - 2], false, some c, none⟩

/-- grid/cachingentity.hh:83-89 and grid/entity.hh:447-449: an old element as it is stored in a connected component: handle, id and
corners at the time of the construction. `corners h` are the corners of cell `h` at that time. -/
def Elem.old (T : Tri d) (corners : Nat → Corners K) (h : Nat) : Option (Elem K) :=
  (cellId T h).map fun i => ⟨some h, some i, false, some (corners h), none⟩

/-- grid/entity.hh:458-492: copy constructor and assignment. `father_` is not copied: the new object has `keep`, which is indeterminate
after construction and what it was before after an assignment. -/
def Elem.copy (e : Elem K) (keep : Option (Corners K)) : Elem K := { e with father := keep }

/-- grid/entity.hh:495-497 `equals`. -/
def Elem.equals (a b : Elem K) : Bool := decide (a.host = b.host)

/-- grid/entity.hh:703-714 `id()`: the object afterwards and the answer; a null handle is undefined. -/
def Elem.getId (T : Tri d) (e : Elem K) : Option (Elem K × List Nat) :=
  match e.id with
  | some i => some (e, i)
  | none =>
    match e.host with
    | some h => (cellId T h).map fun i => ({ e with id := some i }, i)
    | none => none

/-- grid/entity.hh:548, grid/entityseed.hh:35: the seed is the handle. -/
def Elem.seed (e : Elem K) : Option Nat := e.host

/-- grid/entityseed.hh:48-51 `isValid`. -/
def seedValid (s : Option Nat) : Bool := decide (s ≠ none)

/-- mmesh.hh:442-452 `entity(seed)`; the assertion fails for a null handle. -/
def fromSeed (s : Option Nat) : Option (Elem K) := s.map Elem.leaf

/-- grid/entity.hh:566-571 `geometry()`: the corners. `corners h` are those of cell `h` at the moment. -/
def Elem.geometry (corners : Nat → Corners K) (e : Elem K) : Option (Corners K) :=
  if e.isLeaf then e.host.map corners else e.vertex

/-- grid/entity.hh:573 `bindFather`. Simplification: the father is not moved or destroyed while it is bound. -/
def Elem.bindFather (e : Elem K) (f : Corners K) : Elem K := { e with father := some f }

section Field

variable [Field K]

/-- Dune's `AffineGeometry::global` of a triangle. (Models: dune-geometry, not part of /repo; used by
grid/geometry.hh:60-70.) -/
def global (c : Corners K) (x : K × K) : K × K :=
  (c.1.1 + x.1 * (c.2.1.1 - c.1.1) + x.2 * (c.2.2.1 - c.1.1), c.1.2 + x.1 * (c.2.1.2 - c.1.2) + x.2 * (c.2.2.2 - c.1.2))

/-- Dune's `AffineGeometry::local` of a triangle: the normal equations `J Jᵀ y = J (x - origin)`. Simplification:
solved by Cramer's rule
instead of a Cholesky decomposition. (Models: dune-geometry, not part of /repo; used by grid/entity.hh:560-600.) -/
def loc (c : Corners K) (x : K × K) : K × K :=
  let a := (c.2.1.1 - c.1.1, c.2.1.2 - c.1.2)
  let b := (c.2.2.1 - c.1.1, c.2.2.2 - c.1.2)
  let r := (x.1 - c.1.1, x.2 - c.1.2)
  let aa := a.1 * a.1 + a.2 * a.2
  let ab := a.1 * b.1 + a.2 * b.2
  let bb := b.1 * b.1 + b.2 * b.2
  let ra := a.1 * r.1 + a.2 * r.2
  let rb := b.1 * r.1 + b.2 * r.2
  let det := aa * bb - ab * ab
  ((ra * bb - rb * ab) / det, (aa * rb - ab * ra) / det)

/-- grid/entity.hh:577-594 `geometryInFather()` in 2D: the corners of the local geometry. No result if the father was never bound
(`father_` is indeterminate, the assertion only asks for a null pointer). -/
def Elem.geometryInFather (corners : Nat → Corners K) (e : Elem K) : Option (Corners K) :=
  match e.father, e.geometry corners with
  | some f, some p => some (loc f p.1, loc f p.2.1, loc f p.2.2)
  | _, _ => none

/-! ### Interface elements of a 2D grid -/

/-- The end points of a segment. (Models: no code of its own.) -/
abbrev Ends (K : Type) := (K × K) × (K × K)

/-- `AffineGeometry::global` of a segment. (Models: dune-geometry, not part of /repo.) -/
def segGlobal (c : Ends K) (x : K) : K × K := (c.1.1 + x * (c.2.1 - c.1.1), c.1.2 + x * (c.2.2 - c.1.2))

/-- `AffineGeometry::local` of a segment in the plane: the normal equation. (Models: dune-geometry, not part of /repo;
used by interface/entity.hh:490-520.) -/
def segLoc (c : Ends K) (x : K × K) : K :=
  ((c.2.1 - c.1.1) * (x.1 - c.1.1) + (c.2.2 - c.1.2) * (x.2 - c.1.2)) /
    ((c.2.1 - c.1.1) * (c.2.1 - c.1.1) + (c.2.2 - c.1.2) * (c.2.2 - c.1.2))

/-- interface/entity.hh:491-510 `geometryInFather()` of an interface element with the geometry `p` and the bound father `f`: the end
points of the local geometry. -/
def segInFather (f p : Ends K) : K × K := (segLoc f p.1, segLoc f p.2)

/-- `global` of the local geometry of a segment (interface/geometry.hh:195-216). -/
def localGlobal (l : K × K) (x : K) : K := l.1 + x * (l.2 - l.1)

end Field

end Verif.Entity
