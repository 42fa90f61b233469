import Verif.Util.Map
import Verif.Components.Model

/-!
# Connected components

Elements are finite host cells, named by numbers. The ids that key the members of a component are those of elements, and
different elements have different ids, so a component is modelled by the list of its elements in the order of insertion.
-/

namespace Verif.ConnComp

open Verif

/-- What a component sees of the grid: the facet neighbours of an element in the order of its intersections (infinite
neighbours left out, grid/connectedcomponent.hh:105-108), `componentNumber`, `isNew` and `mightVanish`. -/
structure Grid where
  nbr : Nat → List Nat
  num : Nat → Nat
  isNew : Nat → Bool
  vanish : Nat → Bool

/-- The condition for a neighbour (connectedcomponent.hh:109-111); `k` is `componentNumber_`. -/
def joins (g : Grid) (k n : Nat) : Prop := g.num n = k ∧ g.isNew n = false

/-- `insertNeighbors_` (connectedcomponent.hh:104-127), big-step: with the elements `es` already in the component and the
neighbours `ns` still to be looked at, the call ends with the elements `es'`. -/
inductive Insert (g : Grid) (k : Nat) : List Nat → List Nat → List Nat → Prop
  | nil {es} : Insert g k es [] es
  | skip {es n ns es'} : ¬ (joins g k n ∧ n ∉ es) → Insert g k es ns es' → Insert g k es (n :: ns) es'
  | take {es n ns es1 es'} : joins g k n → n ∉ es → Insert g k (es ++ [n]) (g.nbr n) es1 → Insert g k es1 ns es' →
      Insert g k es (n :: ns) es'

/-- The constructor from an element (connectedcomponent.hh:52-62). -/
def Construct (g : Grid) (e : Nat) (es : List Nat) : Prop := Insert g (g.num e) [e] (g.nbr e) es

/-- `update` (connectedcomponent.hh:76-84). -/
def Update (g : Grid) (k : Nat) (es : List Nat) (e : Nat) (es' : List Nat) : Prop :=
  Insert g k (es ++ [e]) (g.nbr e) es'

/-- A component: `componentNumber_` and `entities_` (connectedcomponent.hh:131-137). -/
structure Comp where
  number : Nat
  entities : List Nat

/-- `componentNumber - 1` as std::size_t (grid/mmesh.hh:1513). -/
def componentId (g : Grid) (e : Nat) : Nat := if g.num e = 0 then 2 ^ 64 - 1 else g.num e - 1

/-- One step of the loop in `buildConnectedComponents_` (mmesh.hh:1507-1536) on `connectedComponents_`; outcome `none` is
undefined behaviour: `connectedComponents_[componentId]` makes a component by the default constructor, which leaves
`mMesh_` indeterminate (connectedcomponent.hh:50), and `hasEntity` dereferences it (connectedcomponent.hh:95). The map from
vanishing elements to components is never read and is left out. -/
inductive Step (g : Grid) (cs : List (Nat × Comp)) (e : Nat) : Option (List (Nat × Comp)) → Prop
  | keep : g.vanish e = false → Step g cs e (some cs)
  | isNew : g.vanish e = true → componentId g e < cs.length → g.isNew e = true → Step g cs e (some cs)
  | undefined : g.vanish e = true → componentId g e < cs.length → g.isNew e = false →
      Map.find cs (componentId g e) = none → Step g cs e none
  | has {c} : g.vanish e = true → componentId g e < cs.length → g.isNew e = false →
      Map.find cs (componentId g e) = some c → e ∈ c.entities → Step g cs e (some cs)
  | update {c es} : g.vanish e = true → componentId g e < cs.length → g.isNew e = false →
      Map.find cs (componentId g e) = some c → e ∉ c.entities → Update g c.number c.entities e es →
      Step g cs e (some (Map.set cs (componentId g e) ⟨c.number, es⟩))
  | create {es} : g.vanish e = true → ¬ componentId g e < cs.length → Construct g e es →
      Step g cs e (some (Map.set cs (componentId g e) ⟨g.num e, es⟩))

/-- `buildConnectedComponents_` (mmesh.hh:1506-1537) over the leaf elements in the order of iteration. -/
inductive Build (g : Grid) : List (Nat × Comp) → List Nat → Option (List (Nat × Comp)) → Prop
  | nil {cs} : Build g cs [] (some cs)
  | undefined {cs e l} : Step g cs e none → Build g cs (e :: l) none
  | cons {cs cs' e l o} : Step g cs e (some cs') → Build g cs' l o → Build g cs (e :: l) o

/-- Executable form of `Insert` for examples: the recursion with at most `f` nested steps. (Models:
mmesh.hh:1506-1538.) -/
def insertN (g : Grid) (k : Nat) : Nat → List Nat → List Nat → Option (List Nat)
  | 0, _, _ => none
  | _ + 1, es, [] => some es
  | f + 1, es, n :: ns =>
    if g.num n = k ∧ g.isNew n = false ∧ n ∉ es then
      (insertN g k f (es ++ [n]) (g.nbr n)).bind fun es1 => insertN g k f es1 ns
    else insertN g k f es ns

end Verif.ConnComp
