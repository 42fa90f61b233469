import Verif.Util.Map
import Mathlib.Algebra.Order.Ring.Int

/-!
# Model of the persistent containers (misc/persistentcontainer.hh)

A container is an `unordered_map` from entity ids to values together with the grid's sequence number at the last
effective `resize`.  The base class `Dune::PersistentContainerMap` belongs to dune-grid and is not part of /repo;
what is used of it is written down here and is part of the trusted base:
* its constructor gives the value to every entity of the codimension,
* `migrateLevel(0, value, data)` with an empty map `data` inserts `(id, value)` for every entity that has no entry,
* `operator[]` finds the entry of an id and is undefined without one.

Ids are lists of 64 bit words (C01 shows that `MultiId` compares like the lists).
-/

namespace Verif.Container

/-- The words of a `MultiId` (multiid.hh:18-22). -/
abbrev Key := List (BitVec 64)

/-- The two specialisations: `MMesh<HostGrid, dim>` (persistentcontainer.hh:10-89) and
`MMeshInterfaceGrid<MMesh>` (persistentcontainer.hh:91-158; there `dim = dimensionworld - 1`). -/
inductive Kind where
  | bulk (dim : ℕ)
  | interface (dim : ℕ)
  deriving DecidableEq

/-- The ids inserted for entities that exist during an adaptation only.
Bulk: persistentcontainer.hh:53-78, interface: persistentcontainer.hh:136-148. -/
def cachingIds : Kind → ℕ → List Key
  | .bulk dim, codim =>
    (if codim = 0 then [[-4, -3, -2]] else []) ++
    (if codim = 1 then [[-4, -3], [-4, -2], [-3, -2]] else []) ++
    (if codim = dim then [[-4], [-3], [-2]] else [])
  | .interface dim, codim =>
    (if codim = 0 then [[-3, -2]] else []) ++
    (if codim = dim then [[-3], [-2]] else [])

/-- Grid and container.  `ents`: the ids of the entities of the container's codimension (level 0 is the only level);
`gseq`: `sequence_` of the grid (mmesh.hh:1818, interface/grid.hh:678); `cseq`: `sequence_` of the container
(persistentcontainer.hh:87, 156).  The overflow of `int` is not modelled. -/
structure State (V : Type) where
  ents : List Key
  gseq : ℤ
  data : List (Key × V)
  cseq : ℤ

variable {V : Type}

/-- `data_.insert(std::make_pair(id, value))` for a list of ids (persistentcontainer.hh:54-77, 137-147, and the loop
of `migrateLevel`). -/
def insertAll (m : List (Key × V)) (v : V) : List Key → List (Key × V)
  | [] => m
  | k :: ks => insertAll (Map.insert m k v) v ks

/-- Constructor (persistentcontainer.hh:30-31, 113-114; `sequence_ = -1` in 87, 156) on a grid with entities `ents` and
sequence number `gseq` (0 for a new grid). -/
def construct (ents : List Key) (gseq : ℤ) (v : V) : State V :=
  ⟨ents, gseq, insertAll [] v ents, -1⟩

/-- `resize(value)` (persistentcontainer.hh:36-45 with 47-84; 119-128 with 130-154). -/
def resize (kind : Kind) (codim : ℕ) (v : V) (s : State V) : State V :=
  if s.cseq ≠ s.gseq then
    { s with data := insertAll (insertAll s.data v (cachingIds kind codim)) v s.ents, cseq := s.gseq }
  else s

/-- What happens to grid and container.
* `modify`: the entities of the grid change.  This is what `adapt()` without a data handle does
  (mmesh.hh:826-912, and with it `globalRefine` 709-720, `refineEdge`, … and interface/grid.hh:385)
* `announce`: the grid increments its sequence number (mmesh.hh:1141, interface/grid.hh:391)
* `resize`, `write`: calls of the container's methods; `write k v` is `container[entity] = v`

`adapt(handle)` of the bulk grid is `modify` followed by `announce` (mmesh.hh:1140-1141); `adapt(handle)` of the
interface grid is `announce` (the interface was modified by the adaptation of the bulk grid). -/
inductive Op (V : Type) where
  | modify (ents : List Key)
  | announce
  | resize (v : V)
  | write (k : Key) (v : V)

/-- One step; `none`: undefined (`operator[]` of an entity without entry). (Models: misc/persistentcontainer.hh:25-89,
105-158.) -/
def step (kind : Kind) (codim : ℕ) (s : State V) : Op V → Option (State V)
  | .modify es => some { s with ents := es }
  | .announce => some { s with gseq := s.gseq + 1 }
  | .resize v => some (resize kind codim v s)
  | .write k v => if (Map.find s.data k).isSome then some { s with data := Map.set s.data k v } else none

/-- A history. (Models: no code of its own: a history.) -/
def run (kind : Kind) (codim : ℕ) (s : State V) : List (Op V) → Option (State V)
  | [] => some s
  | o :: os => (step kind codim s o).bind fun s' => run kind codim s' os

/-- `container[entity]`: `none` is undefined behaviour (dune-grid: `data_.find(id)`, asserted to exist). (Models:
dune-grid, not part of /repo; misc/persistentcontainer.hh:25-31.) -/
def read (s : State V) (k : Key) : Option V := Map.find s.data k

/-- `subId(e, i, codim)` of an intermediate element of a two-dimensional grid, an entity that was created from three
points (entity.hh:451-457): the branches for `dummyId` in indexsets.hh:357-376. -/
def subIdMiddle (i codim : ℕ) : Key :=
  match codim with
  | 0 => [-4, -3, -2]
  | 1 => [if i < 2 then -4 else -3, if i = 0 then -3 else -2]
  | _ => [-4 + BitVec.ofNat 64 i]

/-- `subId(e, i, codim)` of an intermediate element of a one-dimensional interface grid (interface/entity.hh:399-400,
interface/indexsets.hh:431-442). -/
def subIdMiddleInterface (i codim : ℕ) : Key :=
  match codim with
  | 0 => [-3, -2]
  | _ => [-3 + BitVec.ofNat 64 i]

end Verif.Container
