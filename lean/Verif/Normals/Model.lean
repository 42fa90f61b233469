import Mathlib.Tactic.Ring
import Mathlib.Tactic.Linarith
import Mathlib.Tactic.FieldSimp
import Mathlib.Tactic.Positivity
import Mathlib.Tactic.NormNum
import Mathlib.Algebra.Order.Field.Basic
import Mathlib.Analysis.SpecialFunctions.Pow.Real

/-!
# Outer normals of intersections (model)

Coordinates are elements of an arbitrary ordered field `K` (rounding is not modelled); normalised vectors use
the real numbers.
-/

namespace Verif.Normals

/-- A point or vector of the plane. -/
@[ext] structure V2 (K : Type*) where
  x : K
  y : K

/-- A point or vector in space. -/
@[ext] structure V3 (K : Type*) where
  x : K
  y : K
  z : K

section
variable {K : Type*} [Field K]

/-- Models: used in grid/intersections.hh:191-222 and interface/intersections.hh:280-328. -/
def V2.sub (a b : V2 K) : V2 K := ⟨a.x - b.x, a.y - b.y⟩
/-- Models: used in grid/intersections.hh:191-222 and interface/intersections.hh:280-328. -/
def V2.add (a b : V2 K) : V2 K := ⟨a.x + b.x, a.y + b.y⟩
/-- Models: used in grid/intersections.hh:191-222 and interface/intersections.hh:280-328. -/
def V2.neg (a : V2 K) : V2 K := ⟨-a.x, -a.y⟩
/-- Models: used in grid/intersections.hh:191-222 and interface/intersections.hh:280-328. -/
def V2.dot (a b : V2 K) : K := a.x * b.x + a.y * b.y
/-- twice the signed area of the triangle `a b c` (positive if counterclockwise). (Models: CGAL `orientation`, not
part of /repo.) -/
def V2.orient (a b c : V2 K) : K := (b.x - a.x) * (c.y - a.y) - (b.y - a.y) * (c.x - a.x)

/-- Models: used in grid/intersections.hh:191-222 and interface/intersections.hh:280-328. -/
def V3.sub (a b : V3 K) : V3 K := ⟨a.x - b.x, a.y - b.y, a.z - b.z⟩
/-- Models: used in grid/intersections.hh:191-222 and interface/intersections.hh:280-328. -/
def V3.add (a b : V3 K) : V3 K := ⟨a.x + b.x, a.y + b.y, a.z + b.z⟩
/-- Models: used in grid/intersections.hh:191-222 and interface/intersections.hh:280-328. -/
def V3.neg (a : V3 K) : V3 K := ⟨-a.x, -a.y, -a.z⟩
/-- Models: used in grid/intersections.hh:191-222 and interface/intersections.hh:280-328. -/
def V3.dot (a b : V3 K) : K := a.x * b.x + a.y * b.y + a.z * b.z
/-- Models: used in grid/intersections.hh:191-222 and interface/intersections.hh:280-328. -/
def V3.cross (a b : V3 K) : V3 K := ⟨a.y * b.z - a.z * b.y, a.z * b.x - a.x * b.z, a.x * b.y - a.y * b.x⟩
/-- six times the signed volume of the tetrahedron `a b c d` (CGAL's orientation of a cell). (Models: CGAL
`orientation`, not part of /repo.) -/
def V3.orient (a b c d : V3 K) : K := ((b.sub a).cross (c.sub a)).dot (d.sub a)

/-- grid/intersections.hh:190-200 `integrationOuterNormal` in 2D for slot `i`:
`p1 = vertex(cw(i))`, `p2 = vertex(ccw(i))` with CGAL's `cw(i) = i+2 mod 3`, `ccw(i) = i+1 mod 3`. -/
def bulkNormal2 (P : Fin 3 → V2 K) (i : Fin 3) : V2 K :=
  let p1 := P (i + 2)
  let p2 := P (i + 1)
  ⟨p1.y - p2.y, -p1.x + p2.x⟩

/-- `CGAL::normal(p, q, r)`: the cross product of `q - p` and `r - p`. (Models: CGAL, not part of /repo;
grid/intersections.hh:203-215.) -/
def cgalNormal (p q r : V3 K) : V3 K := (q.sub p).cross (r.sub p)

/-- grid/intersections.hh:202-214 `integrationOuterNormal` in 3D for slot `i`. -/
def bulkNormal3 (P : Fin 4 → V3 K) (i : Fin 4) : V3 K :=
  let p1 := P (i + 1)
  let p2 := P (i + 2)
  let p3 := P (i + 3)
  if i.val % 2 = 0 then cgalNormal p1 p2 p3 else cgalNormal p1 p3 p2

end

section
variable {K : Type*} [Field K] [LinearOrder K]

/-- interface/intersections.hh:299-329 `integrationOuterNormal` for interface triangles; `C` are the corners of
the triangle in the order of `cgalIndex_`, `index` the number of the edge. -/
def interfaceNormal2 (C : Fin 3 → V3 K) (index : Fin 3) : V3 K :=
  let a := C (if index = 2 then 1 else 0)
  let b := C (if index = 0 then 1 else 2)
  let v := C (Fin.rev index)
  let ab := b.sub a
  let vb := b.sub v
  let elementNormal := ab.cross vb
  let outerNormal := ab.cross elementNormal
  if outerNormal.dot vb < 0 then outerNormal.neg else outerNormal

end

/-- grid/intersections.hh:217-222 and interface/intersections.hh:331-337 `unitOuterNormal`: division by
`two_norm()`. -/
noncomputable def normalize2 (n : V2 ℝ) : V2 ℝ := ⟨n.x / √(n.dot n), n.y / √(n.dot n)⟩

/-- Same in space. -/
noncomputable def normalize3 (n : V3 ℝ) : V3 ℝ :=
  ⟨n.x / √(n.dot n), n.y / √(n.dot n), n.z / √(n.dot n)⟩

/-- interface/intersections.hh:286-297 `integrationOuterNormal` for interface segments in the plane; `C` are the
two corners in the order of `cgalIndex_`. -/
noncomputable def interfaceNormal1 (C : Fin 2 → V2 ℝ) (index : Fin 2) : V2 ℝ :=
  normalize2 ((C index).sub (C (Fin.rev index)))

end Verif.Normals
