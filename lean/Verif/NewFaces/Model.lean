import Verif.InterfaceOps.Props

/-!
# Faces created during an adaptation (2D)

The grid stores in every face of the triangulation how its slots are sorted by vertex ids (`info().cgalIndex`). The array is
written by `setIds()`, which `adapt()` calls after all insertions and removals. Until then a face created in the same call
carries whatever was in its memory (cgal/defaults.hh:29: no initialiser). Removing an interface vertex reads the array of
all faces at the vertex. Here the array consists of arbitrary numbers, and an access outside of an array is `none`.
-/

namespace Verif.NewFaces

open Verif RefElem

/-- A face of the triangulation: the object (its name is never used again in the model), the handles of its vertices and
`info().cgalIndex` (cgal/defaults.hh:25-29). Infinite faces are faces, too. -/
structure Face where
  name : ℕ
  vtx : Fin 3 → ℕ
  c : Fin 3 → ℕ

/-- The triangulation and the interface: faces, the next unused name, `info().id` and `info().isInterface` of the vertices
(cgal/defaults.hh:39-45) and `interfaceSegments_` (grid/mmesh.hh:1813). -/
structure Host where
  faces : List Face
  fresh : ℕ
  id : ℕ → ℕ
  flag : ℕ → Bool
  segs : List (List ℕ × ℕ)

/-- Writing into an array of three numbers. (Models: `std::array`, cgal/defaults.hh:29.) -/
def store (a : Fin 3 → ℕ) (i k : ℕ) : Option (Fin 3 → ℕ) :=
  if h : i < 3 then some (Function.update a ⟨i, h⟩ k) else none

/-- Reading `duneIndex` from `cgalIndex` (grid/common.hh:86-88). -/
def invert (c : Fin 3 → ℕ) : Option (Fin 3 → ℕ) :=
  (store c (c 0) 0).bind fun a => (store a (c 1) 1).bind fun a => store a (c 2) 2

/-- `n - 1` for `size_t`. (Models: no code of its own.) -/
def pred64 (n : ℕ) : ℕ := if n = 0 then 18446744073709551615 else n - 1

/-- `cgalFacetToDuneFacet<2>` (grid/common.hh:81-96); `none` if an array is left, or if the result, with the wrap-around of
`size_t`, is not one of the three facets of the reference element. -/
def duneFacet (c : Fin 3 → ℕ) (i : Fin 3) : Option (Fin 3) :=
  (invert c).bind fun d =>
    if h : pred64 (d (i + 1) + d (i + 2)) < 3 then some ⟨_, h⟩ else none

/-- `subEntity<dim>(k)` of the codim-1 entity `(f, i)` (grid/entity.hh:184-197): the slot of the vertex. -/
def slot (c : Fin 3 → ℕ) (i : Fin 3) (k : Fin 2) : Option (Fin 3) :=
  (duneFacet c i).bind fun f => if h : c (refFacet f k) < 3 then some ⟨c (refFacet f k), h⟩ else none

/-- `isInterface` of the codim-1 entity `(f, i)` (grid/mmesh.hh:607-621). -/
def isInterface (h : Host) (f : Face) (i : Fin 3) : Option Bool :=
  (slot f.c i 0).bind fun a =>
    if h.flag (f.vtx a) = false then some false
    else (slot f.c i 1).bind fun b =>
      if h.flag (f.vtx b) = false then some false
      else some (Map.find h.segs (sortIds [h.id (f.vtx a), h.id (f.vtx b)])).isSome

/-- `incidentInterfaceElements` of a vertex (interface/incidentiterator.hh:181-192) from the edges the circulator visits. -/
def incidentInterface (h : Host) : List (Face × Fin 3) → Option (List (Face × Fin 3))
  | [] => some []
  | e :: l => (isInterface h e.1 e.2).bind fun b => (incidentInterface h l).map fun r => if b then e :: r else r

/-- The other end point of an interface element at `v` (grid/mmesh.hh:1600-1603; interface/entity.hh:574-584,
interface/common.hh:15-38: the two slots beside `i`, sorted by the ids of the vertices). -/
def other (h : Host) (v : ℕ) (e : Face × Fin 3) : ℕ :=
  let a := e.1.vtx (e.2 + 1)
  let b := e.1.vtx (e.2 + 2)
  let p := if h.id b < h.id a then (b, a) else (a, b)
  if p.1 ≠ v then p.1 else p.2

/-- `removeFromInterface_` (grid/mmesh.hh:1583-1642) on the segments: `l` are the edges at `v` in the order of the
circulator. The second component tells the ids of the two vertices between which the host grid is remeshed. -/
def removeFromInterface (h : Host) (v : ℕ) (l : List (Face × Fin 3)) :
    Option (List (List ℕ × ℕ) × Option (ℕ × ℕ)) :=
  (incidentInterface h l).map fun es =>
    let r := InterfaceOps.collect h.segs (h.id v) (es.map fun e => h.id (other h v e))
    match r.2.2 with
    | [o, o'] => (Map.insert r.1 (InterfaceOps.key o o') r.2.1, some (o, o'))
    | _ => (r.1, none)

/-- `setIds()` on the faces (grid/indexsets.hh:413-416): every face gets the permutation that sorts its slots. -/
def setIds (h : Host) : Host :=
  { h with faces := h.faces.map fun f => { f with c := fun k => (computeCGALIndices (fun s => h.id (f.vtx s)) k).val } }

/-- Contract of the operations of the triangulation within `adapt_` (grid/mmesh.hh:1225-1335; cgal/triangulationwrapper.hh):
an object that was a face before keeps its infos (its vertices may change), a face created by the operation carries
arbitrary infos and a new name. Vertices, flags and segments may change in any way. -/
def Change (h h' : Host) : Prop :=
  h.fresh ≤ h'.fresh ∧ ∀ f ∈ h'.faces, f.name < h'.fresh ∧ ((∃ g ∈ h.faces, g.name = f.name ∧ g.c = f.c) ∨ h.fresh ≤ f.name)

end Verif.NewFaces
