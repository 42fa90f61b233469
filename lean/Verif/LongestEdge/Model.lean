import Mathlib.Algebra.Order.Field.Basic
import Mathlib.Algebra.BigOperators.Group.List.Basic

/-!
# Choice of refinement edges and coarsening vertices (remeshing/longestedgerefinement.hh)

`double` is modelled by an ordered field.
-/

namespace Verif.LongestEdge

variable {K : Type*} [Field K] [LinearOrder K]

/-- Edges of the reference segment, as used for interface elements of a 2D grid. (Models: dune-geometry;
remeshing/longestedgerefinement.hh:46.) -/
def segmentEdges : List (Fin 2 × Fin 2) := [(0, 1)]

/-- Edges of the reference triangle. (Models: dune-geometry; remeshing/longestedgerefinement.hh:46, 86.) -/
def triangleEdges : List (Fin 3 × Fin 3) := [(0, 1), (0, 2), (1, 2)]

/-- Edges of the reference tetrahedron. (Models: dune-geometry; remeshing/longestedgerefinement.hh:46, 86.) -/
def tetrahedronEdges : List (Fin 4 × Fin 4) := [(0, 1), (0, 2), (1, 2), (0, 3), (1, 3), (2, 3)]

/-- Loop body of `refinement` (remeshing/longestedgerefinement.hh:47-52): `longest` and the edge `longestIdx`. -/
def longestBody {ι : Type*} (len : ι → ι → K) (s : K × Option (ι × ι)) (e : ι × ι) : K × Option (ι × ι) :=
  if len e.1 e.2 > s.1 then (len e.1 e.2, some e) else s

/-- The edge chosen by `refinement` (remeshing/longestedgerefinement.hh:42-56), for edges given by the numbers of their corners, with the length of an edge. -/
def refinementEdge {ι : Type*} (len : ι → ι → K) (es : List (ι × ι)) : Option (ι × ι) :=
  (es.foldl (longestBody len) (-(10 ^ 100), none)).2

/-- The point chosen by `refinement`: the center of that edge. (Models: remeshing/longestedgerefinement.hh:55-56.) -/
def refinementPoint {ι P : Type*} (len : P → P → K) (center : P → P → P) (c : ι → P) (es : List (ι × ι)) : Option P :=
  (refinementEdge (fun i j => len (c i) (c j)) es).map fun e => center (c e.1) (c e.2)

/-- What the comparison in `coarsening` knows about a vertex: insertion level, sum of the lengths of the edges of the
element
at the vertex, and whether it is at the interface or at the boundary. (Models:
remeshing/longestedgerefinement.hh:92-109.) -/
structure Info (K : Type*) where
  level : Nat
  sum : K
  constrained : Bool
  deriving DecidableEq

/-- The sums of the edge lengths (remeshing/longestedgerefinement.hh:80-90). -/
def edgeSum {ι : Type*} [DecidableEq ι] (len : ι → ι → K) (es : List (ι × ι)) (v : ι) : K :=
  es.foldl (fun (s : K) e => if e.1 = v ∨ e.2 = v then s + len e.1 e.2 else s) 0

/-- The comparison given to `std::sort` (remeshing/longestedgerefinement.hh:92-109). -/
def before (a b : Info K) : Bool :=
  if a.level < b.level then true
  else if a.sum < b.sum - 1 / 10 ^ 14 then true
  else if !a.constrained && b.constrained then true
  else false

/-- Requirement of `std::sort` on the comparison, for the elements of the range. (Models: C++ standard;
remeshing/longestedgerefinement.hh:92.) -/
def StrictWeak {α : Type*} (lt : α → α → Bool) (l : List α) : Prop :=
  (∀ a ∈ l, lt a a = false) ∧ (∀ a ∈ l, ∀ b ∈ l, ∀ c ∈ l, lt a b = true → lt b c = true → lt a c = true) ∧
  (∀ a ∈ l, ∀ b ∈ l, ∀ c ∈ l, lt a b = false → lt b a = false → lt b c = false → lt c b = false → lt a c = false ∧ lt c a = false)

/-- Results of `std::sort`: a permutation in which no element is before an earlier one, if the requirement is met.
Otherwise
the behaviour is undefined, and every list is a possible result. (Models: C++ standard;
remeshing/longestedgerefinement.hh:92.) -/
def SortResult {α : Type*} (lt : α → α → Bool) (l r : List α) : Prop :=
  StrictWeak lt l → r.Perm l ∧ r.Pairwise (fun a b => lt b a = false)

/-- `coarsening` for bulk elements (remeshing/longestedgerefinement.hh:76-112): `v` may be returned for an element whose vertices have these attributes. -/
def Coarsening {ι : Type*} (attr : ι → Info K) (vs : List ι) (v : ι) : Prop :=
  ∃ r, SortResult (fun a b => before (attr a) (attr b)) vs r ∧ r.head? = some v

/-- `isRemoveable` (remeshing/longestedgerefinement.hh:155-163): number of incident interface elements. -/
def isRemoveable (count : Nat) : Bool := count == 2

/-- `coarsening` for interface elements (remeshing/longestedgerefinement.hh:67-73): `none` is the default-constructed vertex. -/
def icoarsening {ι : Type*} (count : ι → Nat) (vs : List ι) : Option ι := vs.find? fun v => isRemoveable (count v)

end Verif.LongestEdge
