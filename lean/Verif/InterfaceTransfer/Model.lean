import Verif.InterfaceOps.Model
import Verif.Transfer.Model

/-!
# Adaptation of the interface with its data (2D)

The operations of `InterfaceOps` together with the map from new interface elements to the old elements they come from, and
the transfer loop of the interface grid that runs over it.

Vertices are named by their ids, `pos` tells where they are; nothing moves during an adaptation. An interface element is named by the
sorted list of its vertex ids (`key`); `ident` gives the id by which the data handle stores its value (`MultiId` of the same list,
interface/grid.hh `globalIdSet`), so different elements have different ids.
-/

namespace Verif.InterfaceTransfer

open Verif RefElem InterfaceOps Transfer

variable {K : Type} [Field K] [LinearOrder K]

/-- The interface part of the grid and `childrenConnectedComponentMap_` (interface/grid.hh:667-668): the copies of old elements
(`ConnectedComponent::children_`, interface/connectedcomponent.hh:92) for every new element. -/
structure IState (K : Type) where
  s : State
  comp : List (List Nat × List (Segment K))

/-- `markAsRefined` (interface/grid.hh:556-560): `insert`, so an entry that exists is kept. -/
def markAsRefined (m : List (List Nat × List (Segment K))) (children : List (List Nat)) (c : List (Segment K)) :
    List (List Nat × List (Segment K)) :=
  children.foldl (fun (m : List (List Nat × List (Segment K))) (k : List Nat) => Map.insert m k c) m

/-- `g` is a copy of the interface element `k` (interface/cachingentity.hh: coordinates and id), its corners in some
order. (Models: interface/cachingentity.hh:60-110.) -/
def Copy (ident : List Nat → Nat) (pos : Nat → K × K) (k : List Nat) (g : Segment K) : Prop :=
  g.id = ident k ∧ ∃ a b, k = key a b ∧ g.a = pos a ∧ g.b = pos b

/-- `RefinementInsertionPoint` (mmesh.hh:128-143): what is inserted, the parameter `where` of `refineEdge` (mmesh.hh:768-775) and
`connectedcomponent`. -/
structure IReq (K : Type) where
  req : Req
  at' : K
  comp : List (Segment K)

/-- Processing of an insertion request in `adapt_` (mmesh.hh:1226-1319), as `InterfaceOps.Insert`, with the calls of
`markAsRefined` (1577, 1303) and the place of a vertex inserted into an edge (773-775); `a` and `b` are its corners 0 and 1. -/
inductive IInsert (pos : Nat → K × K) (t : IState K) : IReq K → IState K → Prop
  /-- 1235-1242 -/
  | stale {a b i w c} : IInsert pos t ⟨.edge a b i, w, c⟩ t
  /-- 1253 -/
  | bulk {a b v E' w c} : t.s.next ≤ v → SplitEdge t.s.edges a b v E' →
      IInsert pos t ⟨.edge a b false, w, c⟩ ⟨{ t.s with edges := E', next := v + 1 }, t.comp⟩
  /-- 1251 with 1541-1581 -/
  | interface {a b v E' s' new w c} : t.s.next ≤ v → SplitEdge t.s.edges a b v E' → insertInInterface 2 t.s [a, b] v = some s' →
      newSegments 2 (key a b) v = some new → pos v = (w * (pos a).1 + (1 - w) * (pos b).1, w * (pos a).2 + (1 - w) * (pos b).2) →
      IInsert pos t ⟨.edge a b true, w, c⟩ ⟨{ s' with edges := E', next := v + 1 }, markAsRefined t.comp new c⟩
  /-- 1257 without `v0` -/
  | cell {v E' w c} : t.s.next ≤ v → AddVertex t.s.edges v E' →
      IInsert pos t ⟨.cell, w, c⟩ ⟨{ t.s with edges := E', next := v + 1 }, t.comp⟩
  /-- 1257-1305 -/
  | extend {v0 v E' w c} : t.s.next ≤ v → AddVertex t.s.edges v E' → key v v0 ∈ E' →
      IInsert pos t ⟨.extend v0, w, c⟩ ⟨{ connect t.s v v0 with edges := E', next := v + 1 }, markAsRefined t.comp [key v v0] c⟩
  /-- 1274-1282 -/
  | noEdge {v0 v E' w c} : t.s.next ≤ v → AddVertex t.s.edges v E' →
      IInsert pos t ⟨.extend v0, w, c⟩ ⟨{ t.s with edges := E', next := v + 1 }, t.comp⟩
  | crossStale {a b c w cc} : IInsert pos t ⟨.cross a b c, w, cc⟩ t
  /-- 1245-1251 with 1292-1305. -/
  | cross {a b c v E' s' new w cc} : t.s.next ≤ v → SplitEdge t.s.edges a b v E' → insertInInterface 2 t.s [a, b] v = some s' →
      newSegments 2 (key a b) v = some new →
      IInsert pos t ⟨.cross a b c, w, cc⟩ ⟨{ connect s' v c with edges := E', next := v + 1 },
        markAsRefined (markAsRefined t.comp new cc) [key v c] cc⟩

/-- Processing of a removal request (mmesh.hh:1323-1335, 1586-1637), as `InterfaceOps.Remove`, with the component of the interface
elements at the vertex in the order of iteration (1591-1598) and the call of `markAsRefined` (1634). -/
inductive IRemove (ident : List Nat → Nat) (pos : Nat → K × K) (t : IState K) (v : Nat) : IState K → Prop
  | bulk {E'} : t.s.flag v = false → RemoveVertex t.s.edges v E' → IRemove ident pos t v ⟨{ t.s with edges := E' }, t.comp⟩
  /-- 1619-1620: a tip or a junction. -/
  | keep {star s'} : t.s.flag v = true → Star t.s.edges v star → removeFromInterface t.s v star = (s', none) →
      IRemove ident pos t v ⟨s', t.comp⟩
  | join {star s' o o' E' c} : t.s.flag v = true → Star t.s.edges v star → removeFromInterface t.s v star = (s', some (o, o')) →
      RemoveVertex t.s.edges v E' → key o o' ∈ E' →
      List.Forall₂ (fun (x : Nat) (g : Segment K) => Copy ident pos (key v x) g) (star.filter fun x => isInterfaceBulk t.s [v, x]) c →
      IRemove ident pos t v ⟨{ s' with edges := E' }, markAsRefined t.comp [key o o'] c⟩

/-- All requests of a list, one after the other. (Models: mmesh.hh:1227, 1323.) -/
inductive IMany {α : Type} (R : IState K → α → IState K → Prop) : IState K → List α → IState K → Prop
  | nil {t} : IMany R t [] t
  | cons {t t1 t2 x l} : R t x t1 → IMany R t1 l t2 → IMany R t (x :: l) t2

/-- `adapt()` of the grid with the insertions `rs` and the removals `vs`, starting with an empty map (interface/grid.hh:418-421). -/
def Adapts (ident : List Nat → Nat) (pos : Nat → K × K) (before : State) (rs : List (IReq K)) (vs : List Nat) (after : IState K) : Prop :=
  ∃ mid, IMany (IInsert pos) ⟨before, []⟩ rs mid ∧ IMany (IRemove ident pos) mid vs after

/-- A leaf element of the interface grid as the loop of `adapt(handle)` sees it (interface/grid.hh:393-397): `isNew()`
(interface/entity.hh:511) and `connectedComponent()` (467) look it up in the map. `corner` gives the corners in the order of the
host grid. -/
def leaf (ident : List Nat → Nat) (corner : List Nat → (K × K) × (K × K)) (t : IState K) (k : List Nat) : ILeaf K where
  id := ident k
  a := (corner k).1
  b := (corner k).2
  isNew := (Map.find t.comp k).isSome
  children := (Map.find t.comp k).getD []

/-- `adapt(handle)` of the interface grid (interface/grid.hh:388-415) with the handle for piecewise constant functions, after
`adapt()` of the grid: the interface elements are visited in the order `order`. -/
def adaptData (ident : List Nat → Nat) (corner : List Nat → (K × K) × (K × K)) (t : IState K) (order : List (List Nat))
    (val : Nat → K) : Nat → K :=
  iTransfer ip0 (order.map (leaf ident corner t)) val

end Verif.InterfaceTransfer
