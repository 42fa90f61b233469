import Verif.Refine.Removal
import Verif.ConnComp.Exact
import Verif.Adapt.Model
import Verif.Transfer.Props

/-!
# `adapt(handle)` from the requests to the data (model)

This module joins the models of the parts of `adapt(handle)` (mmesh.hh:1138-1165) in 2D: the marking (`Components`), the connected components
(`ConnComp`), the insertion and removal loops (`Refine`), the assignment of components to new elements, and the transfer of the data (`Transfer`).
Coordinates are real numbers, rounding is not modelled. The old elements are named by their positions in the list of elements before
`adapt_`, infinite cells by larger numbers. `ident` gives the id that the id set computes from the ids of the vertices of an element.
-/

namespace Verif.Conserve

open Refine

/-- Meshes of triangles. (Models: no code of its own.) -/
abbrev TMesh := Mesh (ℝ × ℝ) 2

/-- The corners of an element, in the order of the host (counter-clockwise in CGAL). (Models:
grid/cachingentity.hh:100-125.) -/
def corners (M : TMesh) (c : Fin 3 → ℕ) : Transfer.Tri ℝ := (M.pos (c 0), M.pos (c 1), M.pos (c 2))

/-- The elements marked for an entry of `insert_` (mmesh.hh:1204-1211, 1822-1872): for an edge the cells on both sides, one of which is infinite if the edge is on
the boundary (`outer` gives the edge at which an infinite cell lies); for a point the element found by `locate`. -/
def ZoneOf (M : TMesh) (outer : ℕ → Finset ℕ) (r : Req (ℝ × ℝ)) (z : List ℕ) : Prop :=
  match r.edge with
  | some (a, b) => (∀ k c, M.cells[k]? = some c → (k ∈ z ↔ (∃ i, c i = a) ∧ ∃ i, c i = b)) ∧ ∀ k ∈ z, M.cells.length ≤ k → outer k = {a, b}
  | none => ∃ k c, z = [k] ∧ M.cells[k]? = some c ∧ r.point ∈ hull ℝ M c

/-- The elements marked for an entry of `remove_` (mmesh.hh:1214-1217, 1887-1902): the elements incident to the vertex. -/
def ZoneAt (M : TMesh) (v : ℕ) (z : List ℕ) : Prop :=
  (∀ k c, M.cells[k]? = some c → (k ∈ z ↔ ∃ i, c i = v)) ∧ ∀ k ∈ z, k < M.cells.length

/-- The insertion loop (mmesh.hh:1226-1319) with `newVertices`: an empty entry is stored for a request that is dropped (1238), the new vertex otherwise
(1318). Requests of `addToInterface` that fail (1281) are not modelled here (C150). -/
inductive Inserts : TMesh → List (Req (ℝ × ℝ)) → List (Option ℕ) → TMesh → Prop
  | nil {M} : Inserts M [] [] M
  | dropped {M M' r rs new} : Step (K := ℝ) M r M → Inserts M rs new M' → Inserts M (r :: rs) (none :: new) M'
  | cons {M M1 M' r rs m new} : Step (K := ℝ) M r M1 → (∀ c ∈ M.cells, ∀ i, c i ≠ m) → (∃ c ∈ M1.cells, ∃ i, c i = m) → Inserts M1 rs new M' →
      Inserts M (r :: rs) (some m :: new) M'

/-- The removal loop (mmesh.hh:1321-1335) with the new elements of every removal. A vertex of the interface that does not have two segments is not removed
(1619-1620). Beyond `Fills`, CGAL gives the new elements counter-clockwise and none of them twice. -/
inductive Removes : TMesh → List ℕ → List (List (Fin 3 → ℕ)) → TMesh → Prop
  | nil {M} : Removes M [] [] M
  | kept {M M' v vs news} : Removes M vs news M' → Removes M (v :: vs) ([] :: news) M'
  | cons {M M' v vs N news} : Fills ℝ M v N → (∀ n ∈ N, 0 < Clip.side (M.pos (n 0)) (M.pos (n 1)) (M.pos (n 2))) →
      (N.Pairwise fun n n' => Finset.univ.image n ≠ Finset.univ.image n') → Removes (removeAt M v N) vs news M' → Removes M (v :: vs) (N :: news) M'

/-- `createdEntityConnectedComponentMap_.insert(…)` for a list of ids (mmesh.hh:1881-1882, 1913-1914): entries are not overwritten. -/
def insertAll (created : List (ℕ × ℕ)) (es : List (ℕ × ℕ)) : List (ℕ × ℕ) := es.foldl (fun m e => Map.insert m e.1 e.2) created

/-- `createdEntityConnectedComponentMap_` after `adapt_`: first the elements made by removals (mmesh.hh:1332-1333, 1905-1916), with the ids computed at that time by
`early`, when the vertices inserted into edges have no ids yet; then the elements at the new vertices (1347-1352, 1875-1884). `ids` are the component ids of the
requests, insertions first. -/
def created (M' : TMesh) (ident early : Finset ℕ → ℕ) (new : List (Option ℕ)) (news : List (List (Fin 3 → ℕ))) (ids : List ℕ) : List (ℕ × ℕ) :=
  insertAll (insertAll [] ((news.zip (ids.drop new.length)).flatMap fun p => p.1.map fun n => (early (Finset.univ.image n), p.2)))
    ((Adapt.assignments new ids).flatMap fun p =>
      (M'.cells.filter fun c => p.1 ∈ Finset.univ.image c).map fun c => (ident (Finset.univ.image c), p.2))

/-- `isNew` after `adapt_` (mmesh.hh:1878, 1909): the element was made by a removal, or it contains a new vertex. -/
def isNew (new : List (Option ℕ)) (news : List (List (Fin 3 → ℕ))) (c : Fin 3 → ℕ) : Bool :=
  decide ((∃ N ∈ news, c ∈ N) ∨ ∃ o ∈ new, ∃ m ∈ o, m ∈ Finset.univ.image c)

/-- The old element number `k` as the component stores it. (Models: grid/connectedcomponent.hh:60-92.) -/
def old (M : TMesh) (ident : Finset ℕ → ℕ) (k : ℕ) : Option (Transfer.Element ℝ) :=
  M.cells[k]?.map fun c => ⟨ident (Finset.univ.image c), corners M c⟩

/-- The children of the connected component of a new element (mmesh.hh:1147, 1764-1771), in a release build. -/
def children (M : TMesh) (ident : Finset ℕ → ℕ) (cr : List (ℕ × ℕ)) (cs : List (ℕ × ConnComp.Comp)) (e : ℕ) : List (Transfer.Element ℝ) :=
  match ConnComp.getComponent false cr cs e with
  | .ok comp => comp.entities.filterMap (old M ident)
  | _ => []

/-- The leaf elements after `adapt_` as the transfer sees them (mmesh.hh:1143-1147). -/
def leaves (M M' : TMesh) (ident : Finset ℕ → ℕ) (new : List (Option ℕ)) (news : List (List (Fin 3 → ℕ))) (cr : List (ℕ × ℕ)) (cs : List (ℕ × ConnComp.Comp)) :
    List (Transfer.Leaf ℝ) :=
  M'.cells.map fun c => ⟨⟨ident (Finset.univ.image c), corners M' c⟩, isNew new news c, children M ident cr cs (ident (Finset.univ.image c))⟩

end Verif.Conserve
