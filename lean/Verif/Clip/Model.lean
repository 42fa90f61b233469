import Mathlib.Algebra.Order.Field.Basic
import Mathlib.Data.List.Rotate

/-!
# Clipping of polygons (grid/polygoncutting.hh, grid/cutsettriangulation.hh)

Numbers are elements of an arbitrary ordered field; rounding is not modelled.
-/

namespace Verif.Clip

variable {K : Type} [Field K] [LinearOrder K]

/-- `lineIntersectionPoint` (polygoncutting.hh:100-114). -/
def lineIntersection (p1 p2 q1 q2 : K × K) : K × K :=
  let dP := (p1.1 - p2.1, p1.2 - p2.2)
  let dQ := (q1.1 - q2.1, q1.2 - q2.2)
  let scale := dP.1 * dQ.2 - dQ.1 * dP.2
  let a := q1.1 * q2.2 - q1.2 * q2.1
  let b := p1.1 * p2.2 - p1.2 * p2.1
  ((dQ.1 * b - dP.1 * a) / scale, (dQ.2 * b - dP.2 * a) / scale)

/-- `firstPos`, `secondPos` (grid/polygoncutting.hh:51-61): position of `p` with respect to the clip edge from `q1` to `q2`. -/
def pos (q1 q2 p : K × K) : K :=
  -(q2.1 - q1.1) * p.2 + (q2.2 - q1.2) * p.1 + (q1.2 * q2.1 - q1.1 * q2.2)

/-- What one edge of the input adds to the output (grid/polygoncutting.hh:63-91); `ε` is `EPSILON`. -/
def clipOne (ε : K) (q1 q2 : K × K) (e : (K × K) × (K × K)) : List (K × K) :=
  let first := pos q1 q2 e.1
  let second := pos q1 q2 e.2
  if first > ε ∧ second < -ε then [lineIntersection e.1 e.2 q1 q2, e.2]
  else if first < -ε ∧ second > ε then [lineIntersection e.1 e.2 q1 q2]
  else if first ≥ -ε ∧ second > ε then []
  else [e.2]

/-- Pairs of consecutive points, `(i, (i + 1) % size)` for all `i` (grid/polygoncutting.hh:28-29, 39-40). -/
def edges (l : List (K × K)) : List ((K × K) × (K × K)) := l.zip (l.rotate 1)

/-- The loop over the edges of the subject for one edge of the clip polygon (grid/polygoncutting.hh:31-92). -/
def clipEdge (ε : K) (input : List (K × K)) (q : (K × K) × (K × K)) : List (K × K) :=
  (edges input).flatMap (clipOne ε q.1 q.2)

/-- `sutherlandHodgman` (grid/polygoncutting.hh:17-96). -/
def sutherlandHodgman (ε : K) (subject clip : List (K × K)) : List (K × K) := (edges clip).foldl (clipEdge ε) subject

/-- `polygonArea` (grid/polygoncutting.hh:121-137). -/
def polygonArea (l : List (K × K)) : K :=
  if l.length < 3 then 0
  else 1 / 2 * (edges l).foldl (fun (area : K) e => area + e.1.1 * e.2.2 - e.2.1 * e.1.2) 0

/-- The orientation check (cutsettriangulation.hh:46-50). The value is stored in an `int`, so it is positive only if it is
at least one. -/
def orientCaching (c : (K × K) × (K × K) × (K × K)) : (K × K) × (K × K) × (K × K) :=
  let o := (c.2.1.2 - c.1.2) * (c.2.2.1 - c.2.1.1) - (c.2.1.1 - c.1.1) * (c.2.2.2 - c.2.1.2)
  if o ≥ 1 then (c.1, c.2.2, c.2.1) else c

/-- Volume of a triangle. (Models: dune-geometry `volume()` as used in grid/cutsettriangulation.hh:58-62.) -/
def volume (t : (K × K) × (K × K) × (K × K)) : K :=
  |(t.2.1.1 - t.1.1) * (t.2.2.2 - t.1.2) - (t.2.1.2 - t.1.2) * (t.2.2.1 - t.1.1)| / 2

/-- The fan of triangles (grid/cutsettriangulation.hh:58-62) without the test of the volume. -/
def fan : List (K × K) → List ((K × K) × (K × K) × (K × K))
  | [] => []
  | p :: l => (l.zip l.tail).map fun e => (p, e.1, e.2)

/-- `CutSetTriangulation` (grid/cutsettriangulation.hh:31-63): corners of the caching element `c`, corners of the element `e`, tolerance `ε` of the
clipping and `δ` of the volumes. -/
def cutSet (ε δ : K) (c e : (K × K) × (K × K) × (K × K)) : List ((K × K) × (K × K) × (K × K)) :=
  let c := orientCaching c
  (fan (sutherlandHodgman ε [c.1, c.2.1, c.2.2] [e.1, e.2.1, e.2.2])).filter fun t => volume t > δ

/-- `MMeshCachingEntity::intersectionVolume` for triangles (cachingentity.hh:155-167): corners of the old element in their stored
order, corners of the element in the order of the host. -/
def intersectionVolume (ε : K) (c e : (K × K) × (K × K) × (K × K)) : K :=
  |polygonArea (sutherlandHodgman ε [c.1, c.2.1, c.2.2] [e.1, e.2.1, e.2.2])|

end Verif.Clip
