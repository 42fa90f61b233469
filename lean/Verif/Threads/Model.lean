import Mathlib.Data.List.Sort
import Mathlib.Algebra.Order.Ring.Nat

/-!
# Model of concurrent calls of `isInterface(const InterfaceElement&)` (mmesh.hh:606-622)

Each thread executes one call.  The vector `ids` is `static`: there is one for all calls of all threads.  Accesses of the
threads are interleaved in any order (a list of thread numbers is a schedule).  Simplification: an assignment
`ids[i] = …`, the whole `std::sort` and the whole `count` are one step each, and memory is sequentially consistent.  The
C++ standard gives no meaning at all to such races, so every wrong answer of the model is a possible behaviour.
The grid does not change during the calls.
-/

namespace Verif.Threads

/-- A vertex of a facet as seen by `isInterface`: its flag (entity.hh `isInterface()`, i.e. `info().isInterface`) and
its
id. (Models: mmesh.hh:606-622, grid/entity.hh `isInterface()`, cgal/defaults.hh:45.) -/
structure Vtx where
  flag : Bool
  id : ℕ
  deriving DecidableEq

/-- Where a call stands: before iteration `i` of the loop (mmesh.hh:609-614), before `std::sort` (616), before `count`
(618), or returned (611, 620). -/
inductive Pc where
  | loop (i : ℕ)
  | sort
  | count
  | done (answer : Bool)
  deriving DecidableEq

/-- A call: the vertices of the facet and the position in the code. (Models: mmesh.hh:606-622.) -/
structure Thread where
  verts : List Vtx
  pc : Pc
  deriving DecidableEq

/-- The static vector and all calls. (Models: mmesh.hh:608.) -/
structure State where
  ids : List ℕ
  threads : List Thread
  deriving DecidableEq

/-- One step of a call: the new content of `ids` and the new position (mmesh.hh:606-622).  `segs` are the keys of
`interfaceSegments_`. -/
def stepThread (segs : List (List ℕ)) (ids : List ℕ) (t : Thread) : List ℕ × Pc :=
  match t.pc with
  | .loop i =>
    match t.verts[i]? with
    | none => (ids, .sort)
    | some v => if v.flag then (ids.set i v.id, .loop (i + 1)) else (ids, .done false)
  | .sort => (ids.insertionSort (· ≤ ·), .count)
  | .count => (ids, .done (decide (ids ∈ segs)))
  | .done b => (ids, .done b)

/-- Thread number `n` makes a step. (Models: mmesh.hh:606-622.) -/
def step (segs : List (List ℕ)) (s : State) (n : ℕ) : State :=
  match s.threads[n]? with
  | none => s
  | some t => ⟨(stepThread segs s.ids t).1, s.threads.set n ⟨t.verts, (stepThread segs s.ids t).2⟩⟩

/-- A schedule is carried out. (Models: no code of its own: a schedule.) -/
def run (segs : List (List ℕ)) (s : State) (sched : List ℕ) : State := sched.foldl (step segs) s

/-- The start of concurrent calls for the given facets; `ids` is what earlier calls left in the static vector.
(Models: no code of its own.) -/
def start (ids : List ℕ) (facets : List (List Vtx)) : State := ⟨ids, facets.map fun f => ⟨f, .loop 0⟩⟩

/-- What call number `n` has returned. (Models: no code of its own.) -/
def answer (s : State) (n : ℕ) : Option Bool :=
  match s.threads[n]? with
  | some ⟨_, .done b⟩ => some b
  | _ => none

end Verif.Threads
