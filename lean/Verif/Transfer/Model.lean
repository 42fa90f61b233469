import Verif.Clip.Model

/-!
# Transfer of data during adaptation (grid/mmesh.hh:1138-1165, interface/grid.hh:388-415)

Numbers are elements of an arbitrary ordered field; rounding is not modelled.
-/

namespace Verif.Transfer

variable {K : Type} [Field K] [LinearOrder K]

/-- Corners of a triangle. (Models: no code of its own.) -/
abbrev Tri (K : Type) := (K × K) × (K × K) × (K × K)

/-- A leaf element or a stored old element: its id in the id set and its corners. For a leaf element the corners are
in the
order of the host (counter-clockwise). (Models: grid/cachingentity.hh:40-125.) -/
structure Element (K : Type) where
  id : Nat
  corners : Tri K

/-- A leaf element with the flag `isNew` and the old elements of its connected component (mmesh.hh:1144-1147). -/
structure Leaf (K : Type) extends Element K where
  isNew : Bool
  children : List (Element K)

/-- A temporary triangle of a cut set with the father that was bound to it last (grid/entity.hh: `bindFather`). All
these
entities have the same id, so there is none here. (Models: grid/cutsettriangulation.hh:20-30, mmesh.hh:1152, 1154.) -/
structure Middle (K : Type) where
  corners : Tri K
  father : Element K

/-- What the loop calls (Dune's `AdaptDataHandleInterface`): both calls may change the state of the handle. (Models:
dune-grid; mmesh.hh:1153, 1155.) -/
structure Handle (K σ : Type) where
  prolongLocal : Element K → Middle K → Bool → σ → σ
  restrictLocal : Element K → Middle K → Bool → σ → σ

variable {σ : Type}

/-- The body of the innermost loop (mmesh.hh:1152-1159) for the corners `m`; the state is the handle and `initialize`. -/
def middleStep (h : Handle K σ) (old element : Element K) (s : σ × Bool) (m : Tri K) : σ × Bool :=
  let s1 := h.prolongLocal old ⟨m, old⟩ true s.1
  let s2 := h.restrictLocal element ⟨m, element⟩ s.2 s1
  (s2, false)

/-- The loop over the triangles of the cut set (mmesh.hh:1149-1160). -/
def oldStep (cut : Tri K → Tri K → List (Tri K)) (h : Handle K σ) (element : Element K) (s : σ × Bool) (old : Element K) : σ × Bool :=
  (cut old.corners element.corners).foldl (middleStep h old element) s

/-- The body of the loop over the leaf elements (mmesh.hh:1144-1162). -/
def leafStep (cut : Tri K → Tri K → List (Tri K)) (h : Handle K σ) (s : σ) (l : Leaf K) : σ :=
  if l.isNew then (l.children.foldl (oldStep cut h l.toElement) (s, true)).1 else s

/-- The loop of `adapt(handle)` (mmesh.hh:1143-1162): leaf elements in the order of the leaf grid view. `preAdapt`, `adapt` and `postAdapt`
are modelled elsewhere; the leaves are those after `adapt`. -/
def transfer (cut : Tri K → Tri K → List (Tri K)) (h : Handle K σ) (leaves : List (Leaf K)) (s : σ) : σ :=
  leaves.foldl (leafStep cut h) s

/-- The cut sets of the code: `CutSetTriangulation` with the tolerances of the clipping and of the volumes. (Models:
mmesh.hh:1138-1165, grid/cutsettriangulation.hh:31-63.) -/
def adaptTransfer (ε δ : K) (h : Handle K σ) (leaves : List (Leaf K)) (s : σ) : σ :=
  transfer (Clip.cutSet ε δ) h leaves s

/-! ## Handles -/

/-- A call of the handle, as a user who implements the interface sees it. (Models: mmesh.hh:1153, 1155.) -/
inductive Call (K : Type)
  | prolong (father : Element K) (son : Middle K) (init : Bool)
  | restrict (father : Element K) (son : Middle K) (init : Bool)

/-- The handle that records all calls. (Models: no code of its own.) -/
def recorder : Handle K (List (Call K)) where
  prolongLocal f m i s := s ++ [.prolong f m i]
  restrictLocal f m i s := s ++ [.restrict f m i]

/-- Values of a piecewise constant function: one per element id and one for the id shared by all temporary triangles.
(Models: dune-fem, not part of /repo.) -/
structure P0 (K : Type) where
  val : Nat → K
  middle : K

/-- The handle of dune-fem for piecewise constant functions (`ConstantLocalRestrictProlong`, not part of /repo): `prolongLocal`
copies the value of the father; `restrictLocal` adds the value of the son with the weight given by `geometryInFather`, the volume
in the bound father (grid/entity.hh:577-594), after setting the father to zero if `initialize`. -/
def p0 : Handle K (P0 K) where
  prolongLocal f _ _ s := { s with middle := s.val f.id }
  restrictLocal f m i s :=
    let w := Clip.volume m.corners / Clip.volume m.father.corners
    { s with val := fun n => if n = f.id then (if i then 0 else s.val f.id) + w * s.middle else s.val n }

/-! ## The interface -/

/-- An interface element (a segment in 2d): its id and its corners. (Models: interface/cachingentity.hh:40-110.) -/
structure Segment (K : Type) where
  id : Nat
  a : K × K
  b : K × K

/-- The square of the volume of a segment. Volumes are compared by their squares. (Models: interface/cachingentity.hh
`intersectionVolume`.) -/
def Segment.volume2 (s : Segment K) : K := (s.b.1 - s.a.1) ^ 2 + (s.b.2 - s.a.2) ^ 2

/-- `geometry().local(x)` of a segment (Dune's `AffineGeometry`, interface/geometry.hh:31-85): the least squares solution. -/
def Segment.loc (s : Segment K) (x : K × K) : K :=
  ((x.1 - s.a.1) * (s.b.1 - s.a.1) + (x.2 - s.a.2) * (s.b.2 - s.a.2)) / s.volume2

/-- The volume of `geometryInFather()` (interface/entity.hh:489-508) of the segment `s` with father `f`. -/
def Segment.volumeIn (s f : Segment K) : K := |f.loc s.b - f.loc s.a|

/-- A leaf interface element (interface/grid.hh:393-397). -/
structure ILeaf (K : Type) extends Segment K where
  isNew : Bool
  children : List (Segment K)

/-- Calls on the interface: the father bound to the son is the first argument in both cases (interface/grid.hh:402-406). -/
structure IHandle (K σ : Type) where
  prolongLocal : Segment K → Segment K → Bool → σ → σ
  restrictLocal : Segment K → Segment K → Bool → σ → σ

/-- The body of the loop over the old elements (interface/grid.hh:399-410). -/
def iOldStep (h : IHandle K σ) (e : Segment K) (s : σ × Bool) (old : Segment K) : σ × Bool :=
  if old.volume2 > e.volume2 then (h.prolongLocal old e true s.1, false)
  else (h.restrictLocal e old s.2 s.1, false)

/-- The body of the loop over the interface elements (interface/grid.hh:393-411). -/
def iLeafStep (h : IHandle K σ) (s : σ) (l : ILeaf K) : σ :=
  if l.isNew then (l.children.foldl (iOldStep h l.toSegment) (s, true)).1 else s

/-- The loop of the interface grid's `adapt(handle)` (interface/grid.hh:393-411). -/
def iTransfer (h : IHandle K σ) (leaves : List (ILeaf K)) (s : σ) : σ := leaves.foldl (iLeafStep h) s

/-- Piecewise constant functions on the interface (dune-fem): here the son of `restrictLocal` is an old element with
its own
value. The weight is the volume of the geometry of the son in its father. (Models: dune-fem, not part of /repo.) -/
def ip0 : IHandle K (Nat → K) where
  prolongLocal f e _ s := fun n => if n = e.id then s f.id else s n
  restrictLocal f o i s := fun n => if n = f.id then (if i then 0 else s f.id) + o.volumeIn f * s o.id else s n

/-- A call of the handle on the interface. (Models: interface/grid.hh:393-411.) -/
inductive ICall (K : Type)
  | prolong (father son : Segment K) (init : Bool)
  | restrict (father son : Segment K) (init : Bool)

/-- The handle that records all calls. (Models: no code of its own.) -/
def irecorder : IHandle K (List (ICall K)) where
  prolongLocal f e i s := s ++ [.prolong f e i]
  restrictLocal f e i s := s ++ [.restrict f e i]

/-- `MMeshInterfaceCachingEntity::intersectionVolume` (interface/cachingentity.hh:146-149): the volumes of the two elements. -/
def iIntersectionVolume (old e : K) : K := min old e

end Verif.Transfer
