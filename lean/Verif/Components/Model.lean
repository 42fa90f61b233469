import Mathlib.Logic.Relation
import Mathlib.Data.List.Basic

/-!
# Grouping of the requested insertions and removals into components

Host cells, finite and infinite ones, are named by numbers. A request is represented by its conflict zone, the list of
cells the marking functions collect: both cells at the edge (grid/mmesh.hh:1839-1855), the cell that contains the point
(mmesh.hh:1861), or the elements incident to the vertex (mmesh.hh:1890-1891).
-/

namespace Verif.Components

/-- `info().componentNumber` and `info().mightVanish` of all host cells (cgal/defaults.hh:26-38) and
`componentCount_` (mmesh.hh:1789). -/
structure State where
  num : Nat → Nat
  vanish : Nat → Bool
  count : Nat

/-- Cells of a fresh grid (cgal/defaults.hh:32-34). `componentCount_` is set at the start of `adapt_`. -/
def init : State := ⟨fun _ => 0, fun _ => false, 0⟩

/-- The search in `getComponentNumber_` (mmesh.hh:1925-1935): pair of `componentNumber` and `markAgain`. -/
def search (num : Nat → Nat) (elements : List Nat) : Nat × Bool :=
  elements.foldl
    (fun (r : Nat × Bool) (e : Nat) =>
      if num e > 0 then
        if r.1 ≠ 0 ∧ num e ≠ r.1 then (min (num e) r.1, true) else (num e, r.2)
      else r)
    (0, false)

/-- `markElementsForInsertion_`, `markElementForInsertion_` and `markElementsForRemoval_` (mmesh.hh:1822-1836,
1858-1872, 1887-1902), which only differ in the zone, with `getComponentNumber_` (mmesh.hh:1919-1941). Returns the new
state, `markAgain` and `componentNumber`. -/
def markZone (s : State) (zone : List Nat) : State × Bool × Nat :=
  let r := search s.num zone
  let k := if r.1 = 0 then s.count else r.1
  let count := if r.1 = 0 then s.count + 1 else s.count
  (⟨fun c => if c ∈ zone then k else s.num c, fun c => if c ∈ zone then true else s.vanish c, count⟩, r.2, k)

/-- One pass over all requests (mmesh.hh:1204-1217): the new state, `markAgain`, and the recorded component ids
(insertComponentIds followed by removeComponentIds). `componentNumber - 1` is unsigned in the code; a component number
is never 0 because counting starts with 1. -/
def sweep (s : State) : List (List Nat) → State × Bool × List Nat
  | [] => (s, false, [])
  | z :: zs =>
    let r := markZone s z
    let t := sweep r.1 zs
    (t.1, r.2.1 || t.2.1, (r.2.2 - 1) :: t.2.2)

/-- The loop `while (markAgain)` (mmesh.hh:1196-1218): it ends in state `s'` with the ids of the last pass. No derivation
exists for a loop that does not end. -/
inductive Marking (zones : List (List Nat)) : State → State → List Nat → Prop
  | done {s} : (sweep s zones).2.1 = false → Marking zones s (sweep s zones).1 (sweep s zones).2.2
  | again {s s' ids} : (sweep s zones).2.1 = true → Marking zones (sweep s zones).1 s' ids → Marking zones s s' ids

/-- Start of the marking in `adapt_` (mmesh.hh:1190-1191): `n` is `connectedComponents_.size()`. -/
def start (s : State) (n : Nat) : State := { s with count := n + 1 }

/-- `postAdapt` (mmesh.hh:1457-1462): resets the leaf elements, that is the finite cells, only. -/
def postAdapt (s : State) (leaf : List Nat) : State :=
  { s with num := fun c => if c ∈ leaf then 0 else s.num c, vanish := fun c => if c ∈ leaf then false else s.vanish c }

end Verif.Components
