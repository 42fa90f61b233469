import Mathlib.Data.Finset.Image
import Mathlib.Data.Fintype.Basic
import Mathlib.Data.Fin.Tuple.Basic
import Mathlib.Data.Fin.VecNotation
import Mathlib.Data.List.Sort
import Mathlib.Algebra.Order.Ring.Nat
import Mathlib.Algebra.Field.Basic
import Mathlib.Algebra.Order.Field.Basic

/-!
# Explicit grid factory (model): connectivity

Elements are handles `0, 1, 2, …` in order of creation. A slot `(h, i)` is the neighbour pointer number `i` of
element `h`. `std::set<unsigned>` keys are finite sets of vertex numbers. The vertex → element pointers are not
modelled.
-/

namespace Verif.Factory

/-- Models: grid/explicitgridfactory.hh:584 `std::pair<Element_handle, int>`. -/
abbrev Slot (d : Nat) := Nat × Fin (d + 1)

/-- explicitgridfactory.hh:584-586: the neighbour pointers and one of the two maps `neighborMap`,
`infiniteNeighborMap`. -/
structure MState (d : Nat) where
  nbr : Slot d → Option Nat
  fmap : List (Finset Nat × Slot d)

/-- `element->set_neighbor(fi, neighbor); neighbor->set_neighbor(ni, element);`
(explicitgridfactory.hh:228-229, 479-480, 494-495). -/
def link {d : Nat} (nbr : Slot d → Option Nat) (s s' : Slot d) : Slot d → Option Nat :=
  fun t => if t = s' then some s.1 else if t = s then some s'.1 else nbr t

/-- explicitgridfactory.hh:210-233 `addFacetToMap` (and 483-499, 542-560 for the infinite elements): insert into
the map; if the key was present, connect and erase. -/
def addFacet {d : Nat} (st : MState d) (key : Finset Nat) (s : Slot d) : MState d :=
  match st.fmap.find? (fun e => e.1 = key) with
  | none => { st with fmap := st.fmap ++ [(key, s)] }
  | some (_, s') => { nbr := link st.nbr s s', fmap := st.fmap.filter (fun e => e.1 ≠ key) }

/-- The facets registered for an element, and the infinite element created for a boundary facet. (Models:
grid/explicitgridfactory.hh:163-165, 196-199, 473-475, 531-533.) -/
structure Scheme (d : Nat) where
  /-- the calls of `addFacetToMap` for an element with vertices `v` -/
  facets : (Fin (d + 1) → Nat) → List (Finset Nat × Fin (d + 1))
  /-- the finite vertices, in order, of the infinite element at facet `fi` -/
  inf : (Fin (d + 1) → Nat) → Fin (d + 1) → Fin d → Nat
  /-- the entries of `infiniteNeighborMap` for an infinite element with the given finite vertices -/
  ifacets : (Fin d → Nat) → List (Finset Nat × Fin d)

/-- 2D: explicitgridfactory.hh:163-165, 473-475, 483-486. -/
def scheme2 : Scheme 2 where
  facets v := [({v 0, v 1}, 2), ({v 0, v 2}, 1), ({v 1, v 2}, 0)]
  inf v fi := ![v (fi + 2), v (fi + 1)]
  ifacets w := [({w 0}, 1), ({w 1}, 0)]

/-- 3D: explicitgridfactory.hh:196-199, 531-534, 542-547. -/
def scheme3 : Scheme 3 where
  facets v := [({v 0, v 1, v 2}, 3), ({v 0, v 1, v 3}, 2), ({v 0, v 2, v 3}, 1), ({v 1, v 2, v 3}, 0)]
  inf v fi := if fi.val % 2 = 1 then ![v (fi + 2), v (fi + 1), v (fi + 3)] else ![v (fi + 1), v (fi + 2), v (fi + 3)]
  ifacets w := [({w 0, w 1}, 2), ({w 1, w 2}, 0), ({w 2, w 0}, 1)]

/-- The triangulation data structure: the elements with their vertices (`none` is the infinite vertex). (Models:
CGAL's triangulation data structure `tr_.tds()`, grid/explicitgridfactory.hh:151, 183.) -/
structure Tds (d : Nat) where
  cells : List (Fin (d + 1) → Option Nat)
  st : MState d

/-- explicitgridfactory.hh:132-200 `createElement` (after the vertex swap in 2D, see `orient2`). -/
def createElement {d : Nat} (S : Scheme d) (t : Tds d) (v : Fin (d + 1) → Nat) : Tds d :=
  let h := t.cells.length
  { cells := t.cells ++ [fun i => some (v i)],
    st := (S.facets v).foldl (fun st f => addFacet st f.1 (h, f.2)) t.st }

/-- explicitgridfactory.hh:405-406: all elements, in the order after sorting. -/
def createElements {d : Nat} (S : Scheme d) (E : List (Fin (d + 1) → Nat)) : Tds d :=
  E.foldl (createElement S) { cells := [], st := { nbr := fun _ => none, fmap := [] } }

/-- explicitgridfactory.hh:458-500, 513-561: one pass of the loop over `neighborMap`: the infinite element `c` of
facet `fi` of element `h`. -/
def createInfinite {d : Nat} (S : Scheme d) (E : List (Fin (d + 1) → Nat)) (t : Tds d) (s : Slot d) : Tds d :=
  match E[s.1]? with
  | none => t
  | some v =>
    let c := t.cells.length
    let w := S.inf v s.2
    { cells := t.cells ++ [Fin.snoc (fun i => some (w i)) none],
      st := (S.ifacets w).foldl (fun st f => addFacet st f.1 (c, f.2.castSucc))
        { t.st with nbr := link t.st.nbr s (c, Fin.last d) } }

/-- explicitgridfactory.hh:405-412: elements, then infinite elements for the remaining entries of
`neighborMap`, visited in the order `order`. -/
def buildTds {d : Nat} (S : Scheme d) (E : List (Fin (d + 1) → Nat)) (order : List (Finset Nat × Slot d)) : Tds d :=
  let t := createElements S E
  order.foldl (fun t e => createInfinite S E t e.2) { t with st := { t.st with fmap := [] } }

section
variable {K : Type*} [Field K] [LinearOrder K]

/-- explicitgridfactory.hh:136-144: if the triangle is clockwise, its first two vertices are swapped. -/
def orient2 (x y : Nat → K) (v : Fin 3 → Nat) : Fin 3 → Nat :=
  let orientation := (y (v 1) - y (v 0)) * (x (v 2) - x (v 1)) - (x (v 1) - x (v 0)) * (y (v 2) - y (v 1))
  if orientation > 0 then ![v 1, v 0, v 2] else v

/-- explicitgridfactory.hh:173-183: in 3D the vertices are used as given. -/
def orient3 (v : Fin 4 → Nat) : Fin 4 → Nat := v

end

end Verif.Factory
