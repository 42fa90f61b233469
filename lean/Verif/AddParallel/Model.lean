import Verif.PartIter.Props
import Verif.InterfaceIndexSet.Props

/-!
# Adding a facet to the interface on several processes (grid/mmesh.hh: `addInterface`, `loadBalance`)

Indices of the interface grid are computed by an iteration over the elements present on the process, which asks for their
partitions. `verts e` are the ids of the vertices of the interface element `e`.
-/

namespace Verif.AddParallel

open Verif Parallel

/-- What a process stores about the interface: partitions and the index set of the interface grid. (Models:
partitionhelper.hh:503-508, interface/indexsets.hh:240-285.) -/
structure Proc where
  part : Part
  index : InterfaceIndexSet.State

/-- misc/partitionhelper.hh:115-136 `partition` of an interface element; a missing entry is -1. -/
def partition (size : Nat) (s : Part) (e : Nat) : Int := if size = 1 then 0 else s.ipart e

/-- The iteration over `elements(leafGridView, Partitions::all)` of the interface grid (interface/leafiterator.hh:32-112). -/
def visited (size : Nat) (m : Mesh) (s : Part) : List Nat :=
  Iterate.rangeFor (fun e => PartIter.contains .all (partition size s e)) m.ielems

/-- `setIndices` of the interface grid (interface/grid.hh:636-637), without the boundary segments. -/
def setIndices (d size : Nat) (verts : Nat → List Nat) (m : Mesh) (s : Part) : Option InterfaceIndexSet.State :=
  InterfaceIndexSet.update d ((visited size m s).map verts)

/-- `computeInterfacePartitions` (misc/partitionhelper.hh:337-468) in a state with known partitions of the cells. -/
def computeInterface (m : Mesh) (me : Nat) (s : Part) : Part :=
  m.joints.foldl (borderJoint m)
    (m.joints.foldl (ghostJoint m) (m.ielems.foldl (ielemOne m me) { s with ipart := fun _ => -1, jpart := [] }))

/-- The end of `addInterface` (grid/mmesh.hh:394-397): `m` is the mesh with the new interface element, `s` what the process
stored before. First the indices, then the partitions are computed. -/
def addInterface (d size me : Nat) (verts : Nat → List Nat) (m : Mesh) (s : Part) : Option Proc :=
  (setIndices d size verts m s).map fun ix => ⟨computeInterface m me s, ix⟩

/-- `loadBalance` (grid/mmesh.hh:1683-1686; misc/partitionhelper.hh:22-38; grid/mmesh.hh:310-315): first the partitions (on more
than one process), then the indices. -/
def loadBalance (d size me : Nat) (verts : Nat → List Nat) (m : Mesh) (s : Part) : Option Proc :=
  let s' := if size = 1 then s else compute m me
  (setIndices d size verts m s').map fun ix => ⟨s', ix⟩

end Verif.AddParallel
