import Verif.InterfaceOps.History
import Mathlib.Algebra.Order.Field.Basic

/-!
# Markers of interface segments and of elements (model)

The operations on the interface are those of `InterfaceOps`; here the calls of a history are recorded, and every vertex has a
position (ids are never used twice, so that a position belongs to an id).
-/

namespace Verif.Markers

open Verif RefElem InterfaceOps

/-- interface/grid.hh:547-553 `domainMarker(entity)` of the interface grid with the ids `l` of the vertices of the entity: the second
component is the map afterwards, since `operator[]` inserts a missing key with the value 0. The assertion is not modelled (release build). -/
def domainMarker (s : State) (l : List Nat) : Nat × State :=
  match Map.find s.segs (sortIds l) with
  | some m => (m, s)
  | none => (0, { s with segs := Map.insert s.segs (sortIds l) 0 })

/-- The calls of the user. (Models: mmesh.hh:374-392, 768-822, 1435-1450.) -/
inductive Call
  | add (a b marker : Nat)
  | refine (a b : Nat)
  | cell
  | extend (v0 : Nat)
  | cross (a b c : Nat)
  | remove (v : Nat)
  | adapt
deriving DecidableEq

section
variable {K : Type*} [Field K] [LinearOrder K]

/-- `p` lies on the segment with the end points `a`, `b`. (Models: no code of its own.) -/
def OnSegment (p a b : K × K) : Prop :=
  ∃ t : K, 0 ≤ t ∧ t ≤ 1 ∧ p = (a.1 + t * (b.1 - a.1), a.2 + t * (b.2 - a.2))

/-- mmesh.hh:1226-1319: one insertion, where the new vertex of an edge lies on the edge (refineEdge mmesh.hh:768-793 with `where` between 0 and 1;
midpoints 826-905). The new vertex has the largest id. -/
def InsertAt (pos : Nat → K × K) (s : State) (r : Req) (s' : State) : Prop :=
  Insert false s r s' ∧ ∀ a b i, r = .edge a b i → s.next < s'.next → OnSegment (pos (s'.next - 1)) (pos a) (pos b)

/-- One call, as in `InterfaceOps.Step`, with the positions of new vertices. (Models: mmesh.hh:374-392, 768-822,
1226-1335.) -/
inductive Step (pos : Nat → K × K) : Full → Call → Full → Prop
  /-- mmesh.hh:374-392 -/
  | add {f a b m} : a ≠ b → key a b ∈ f.s.edges → Step pos f (.add a b m) { f with s := addInterface f.s [a, b] m }
  /-- mmesh.hh:768-793, 826-905 -/
  | refine {f a b} : a ≠ b → key a b ∈ f.s.edges →
      Step pos f (.refine a b) { f with insert := f.insert ++ [.edge a b (isInterfaceBulk f.s [a, b])] }
  /-- mmesh.hh:796-803 -/
  | cell {f} : Step pos f .cell { f with insert := f.insert ++ [.cell] }
  /-- mmesh.hh:1435-1453 -/
  | extend {f v0} : f.s.flag v0 = true → v0 < f.s.next → Step pos f (.extend v0) { f with insert := f.insert ++ [.extend v0] }
  /-- mmesh.hh:1048-1068 -/
  | cross {f a b c} : isInterfaceBulk f.s [a, b] = true → f.s.flag c = true → c < f.s.next → c ≠ a → c ≠ b →
      Step pos f (.cross a b c) { f with insert := f.insert ++ [.cross a b c] }
  /-- mmesh.hh:805-821 -/
  | remove {f v} : Step pos f (.remove v) { f with remove := f.remove ++ [v] }
  /-- mmesh.hh:1180-1362 and postAdapt (1455-1473) -/
  | adapt {f s1 s2} : Many (InsertAt pos) f.s f.insert s1 → Many Remove s1 f.remove s2 → Step pos f .adapt ⟨s2, [], []⟩

/-- A history of calls. (Models: no code of its own.) -/
inductive History (pos : Nat → K × K) : Full → List Call → Full → Prop
  | nil {f} : History pos f [] f
  | snoc {f f1 f2 l c} : History pos f l f1 → Step pos f1 c f2 → History pos f (l ++ [c]) f2

end

/-! ### Elements -/

/-- grid/explicitgridfactory.hh: what the factory has stored: positions of vertices and `elements_` (vertices,
insertion index, domain marker);
the dimension is `d`. (Models: grid/explicitgridfactory.hh:578-579.) -/
structure Fac (d : Nat) (K : Type*) where
  vertices : List (Fin d → K)
  elements : List ((Fin (d + 1) → Nat) × Nat × Nat)
  count : Nat

/-- The factory before any call. (Models: grid/explicitgridfactory.hh:84-90.) -/
def Fac.init (d : Nat) (K : Type*) : Fac d K := ⟨[], [], 0⟩

/-- explicitgridfactory.hh:312-326 `insertVertex`. -/
def Fac.insertVertex {d : Nat} {K : Type*} (f : Fac d K) (p : Fin d → K) : Fac d K := { f with vertices := f.vertices ++ [p] }

/-- explicitgridfactory.hh:103-118, 122-125 `insertElement` with a domain marker and `storeElement`. -/
def Fac.insertElement {d : Nat} {K : Type*} (f : Fac d K) (v : Fin (d + 1) → Nat) (marker : Nat) : Fac d K :=
  { f with elements := f.elements ++ [(v, f.count, marker)], count := f.count + 1 }

/-- explicitgridfactory.hh:92-95 `insertElement` without a marker. -/
def Fac.insertElement' {d : Nat} {K : Type*} (f : Fac d K) (v : Fin (d + 1) → Nat) : Fac d K := f.insertElement v 0

/-- A cell of the triangulation with what is stored in its info. (Models: cgal/defaults.hh:26-38.) -/
structure Cell (d : Nat) where
  vertex : Fin (d + 1) → Nat
  insertionIndex : Nat
  domainMarker : Nat

/-- explicitgridfactory.hh:132-200 `createElement` for each stored element, in the given order; `orient` is `Factory.orient2` in 2D and
`Factory.orient3` in 3D. -/
def createCells {d : Nat} (orient : (Fin (d + 1) → Nat) → Fin (d + 1) → Nat) (L : List ((Fin (d + 1) → Nat) × Nat × Nat)) : List (Cell d) :=
  L.map fun t => ⟨orient t.1, t.2.1, t.2.2⟩

/-- explicitgridfactory.hh:392-403: the comparison of two elements, by the sums of the x-coordinates. -/
def sumX {d : Nat} {K : Type*} [Field K] (x : Nat → K) (v : Fin (d + 1) → Nat) : K := ((List.finRange (d + 1)).map fun i => x (v i)).sum

/-- explicitgridfactory.hh:390-406: `std::sort` returns some sorted permutation, then the cells are created. -/
def Created {d : Nat} {K : Type*} [Field K] [LinearOrder K] (orient : (Fin (d + 1) → Nat) → Fin (d + 1) → Nat) (x : Nat → K)
    (f : Fac d K) (cells : List (Cell d)) : Prop :=
  ∃ L, L.Perm f.elements ∧ L.Pairwise (fun a b => ¬ sumX x b.1 < sumX x a.1) ∧ cells = createCells orient L

/-- implicitgridfactory.hh:95-108 `insertElement` with or without a marker: the marker is ignored; if there is a cell with these vertices,
its insertion index is set. -/
def implicitInsertElement {d : Nat} (cells : List (Cell d)) (count : Nat) (v : Fin (d + 1) → Nat) (_marker : Nat) : List (Cell d) × Nat :=
  (cells.map fun c => if Finset.univ.image c.vertex = Finset.univ.image v then { c with insertionIndex := count } else c, count + 1)

/-- The cells of the host grid by their handles. (Models: no code of its own.) -/
abbrev Cells (d : Nat) := List (Nat × Cell d)

/-- What the host grid does to cells when it inserts or removes a vertex (CGAL): a handle that stays keeps its info, possibly with other
vertices; a new handle gets a new info object, whose `domainMarker` is 0 (cgal/defaults.hh:30). No line of `adapt_` (mmesh.hh:1180-1362) writes
`domainMarker`. -/
structure Rewrite {d : Nat} (old new : Cells d) : Prop where
  nodupOld : (old.map Prod.fst).Nodup
  nodupNew : (new.map Prod.fst).Nodup
  kept : ∀ e ∈ new, ∀ e' ∈ old, e.1 = e'.1 → e.2.domainMarker = e'.2.domainMarker
  fresh : ∀ e ∈ new, e.1 ∉ old.map Prod.fst → e.2.domainMarker = 0

end Verif.Markers
