import Mathlib.Algebra.Field.Basic
import Mathlib.Algebra.BigOperators.Group.Finset.Basic
import Mathlib.Data.Fintype.BigOperators

/-!
# The iterative solver on several processes (dune/python/mmesh/jacobian_iterative.hh, model)

Each process runs the same code on its own vectors. A degree of freedom (dof) of the bulk (`I`) or of the interface (`J`) is present on some
processes and owned by one of them. `double` is modelled by a field; rounding is not modelled.

From dune-fem (not part of the repository): `scalarProductDofs` adds the products of the dofs a process owns and sums over all processes;
`communicate` replaces the dofs a process does not own by the values on the owner.
-/

namespace Verif.ParSolve

variable {P I J K : Type} [Fintype P] [DecidableEq P] [Fintype I] [Fintype J] [Field K]

/-- Which dofs are present on which process and who owns them. (Models: no code of its own: the parallel spaces of
dune-fem.) -/
structure Dist (P I : Type) where
  has : P → I → Bool
  owner : I → P

/-- A block vector on a process: bulk dofs, interface dofs. Entries of dofs that are not present are never read.
(Models: dune/python/mmesh/jacobian_iterative.hh:233-236.) -/
abbrev Vec (I J K : Type) := (I → K) × (J → K)

/-- The four blocks of the matrix `M_` on a process (jacobian_iterative.hh:289-300). -/
structure Blocks (I J K : Type) where
  A : I → I → K
  B : I → J → K
  C : J → I → K
  D : J → J → K

/-- Discrete functions (dune-fem) `scalarProductDofs`: the same number on all processes. (Models: called in
dune/python/mmesh/jacobian_iterative.hh:144, 150-151.) -/
def scalarProductDofs (D : Dist P I) (x y : P → I → K) : K :=
  ∑ p, ∑ i, if D.has p i && decide (D.owner i = p) then x p i * y p i else 0

/-- Discrete functions (dune-fem) `communicate`. (Models: called in dune/python/mmesh/jacobian_iterative.hh:197-198.)
-/
def communicateDofs (D : Dist P I) (x : P → I → K) : P → I → K := fun p i => if D.has p i then x (D.owner i) i else x p i

/-- jacobian_iterative.hh:139-145 `ParallelizedScalarProduct::dot`: bulk part and interface part. -/
def dot (DI : Dist P I) (DJ : Dist P J) (x y : P → Vec I J K) : K :=
  scalarProductDofs DI (fun p => (x p).1) (fun p => (y p).1) + scalarProductDofs DJ (fun p => (x p).2) (fun p => (y p).2)

/-- jacobian_iterative.hh:147-152 `ParallelizedScalarProduct::norm`; `sqrt` is `std::sqrt`. -/
def norm (sqrt : K → K) (DI : Dist P I) (DJ : Dist P J) (x : P → Vec I J K) : K :=
  sqrt (scalarProductDofs DI (fun p => (x p).1) (fun p => (x p).1) + scalarProductDofs DJ (fun p => (x p).2) (fun p => (x p).2))

/-- jacobian_iterative.hh:194-201 `communicate`. -/
def communicate (DI : Dist P I) (DJ : Dist P J) (y : P → Vec I J K) : P → Vec I J K :=
  fun p => (communicateDofs DI (fun q => (y q).1) p, communicateDofs DJ (fun q => (y q).2) p)

/-- The sum of a row over the dofs of the process. (Models: ISTL, not part of /repo.) -/
def rowSum (has : I → Bool) (r x : I → K) : K := ∑ i, if has i then r i * x i else 0

/-- ISTL's `mv` of the block matrix on process `p`: `y = M x` with the rows and columns of the dofs that are present.
(Models: called in dune/python/mmesh/jacobian_iterative.hh:175.) -/
def mv (DI : Dist P I) (DJ : Dist P J) (p : P) (M : Blocks I J K) (x : Vec I J K) : Vec I J K :=
  (fun i => rowSum (DI.has p) (M.A i) x.1 + rowSum (DJ.has p) (M.B i) x.2,
   fun j => rowSum (DI.has p) (M.C j) x.1 + rowSum (DJ.has p) (M.D j) x.2)

/-- jacobian_iterative.hh:174-177 `ParallelizedMatrixAdapter::apply` on all processes. -/
def apply (DI : Dist P I) (DJ : Dist P J) (M : P → Blocks I J K) (x : P → Vec I J K) : P → Vec I J K :=
  communicate DI DJ fun p => mv DI DJ p (M p) (x p)

/-- jacobian_iterative.hh:180-183 `applyscaleadd` on all processes: `y = y + alpha M x`. -/
def applyscaleadd (DI : Dist P I) (DJ : Dist P J) (M : P → Blocks I J K) (alpha : K) (x y : P → Vec I J K) : P → Vec I J K :=
  communicate DI DJ fun p =>
    let m := mv DI DJ p (M p) (x p)
    (fun i => (y p).1 i + alpha * m.1 i, fun j => (y p).2 j + alpha * m.2 j)

/-! ### A linear solver -/

/-- What an iterative solver of ISTL does with vectors (numbered by registers) and scalars. Everything but the operator, the scalar
product and the norm is local to a process (jacobian_iterative.hh:189-191: the category is `sequential`). -/
inductive Op (K : Type)
  | apply (dst src : Nat)
  | applyscaleadd (alpha : K) (dst src : Nat)
  | axpy (alpha : K) (dst src : Nat)
  | scale (alpha : K) (dst : Nat)
  | copy (dst src : Nat)
  | dot (a b : Nat)
  | norm (a : Nat)
deriving DecidableEq

/-- A solver: the next operation, or the end, as a function of the operations performed so far: one entry for each,
with its result if it is a
scalar product or a norm. (Models: ISTL, not part of /repo; dune/python/mmesh/jacobian_iterative.hh:310-322.) -/
abbrev Solver (K : Type) := List (Option K) → Option (Op K)

/-- Local operations on a vector. (Models: ISTL.) -/
def axpy (alpha : K) (y x : Vec I J K) : Vec I J K := (fun i => y.1 i + alpha * x.1 i, fun j => y.2 j + alpha * x.2 j)

/-- Local multiplication by a scalar. (Models: ISTL.) -/
def scale (alpha : K) (y : Vec I J K) : Vec I J K := (fun i => alpha * y.1 i, fun j => alpha * y.2 j)

/-- The state of a process: registers and what it has seen so far. (Models: no code of its own.) -/
structure Proc (I J K : Type) where
  reg : Nat → Vec I J K
  seen : List (Option K)

/-- An operation without a scalar as its result: register `n` becomes `v`. (Models: no code of its own.) -/
def Proc.set (s : Proc I J K) (n : Nat) (v : Vec I J K) : Proc I J K := ⟨fun m => if m = n then v else s.reg m, s.seen ++ [none]⟩

/-- Replace register `n` on all processes. (Models: no code of its own.) -/
def setAll (st : P → Proc I J K) (n : Nat) (v : P → Vec I J K) : P → Proc I J K := fun p => (st p).set n (v p)

/-- All processes have seen the scalar `a`. (Models: no code of its own.) -/
def see (st : P → Proc I J K) (a : K) : P → Proc I J K := fun p => { st p with seen := (st p).seen ++ [some a] }

/-- One operation performed by all processes. (Models: dune/python/mmesh/jacobian_iterative.hh:139-152, 174-183,
324-327.) -/
def perform (sqrt : K → K) (DI : Dist P I) (DJ : Dist P J) (M : P → Blocks I J K) (st : P → Proc I J K) : Op K → (P → Proc I J K)
  | .apply d s => setAll st d (apply DI DJ M fun p => (st p).reg s)
  | .applyscaleadd a d s => setAll st d (applyscaleadd DI DJ M a (fun p => (st p).reg s) fun p => (st p).reg d)
  | .axpy a d s => setAll st d fun p => axpy a ((st p).reg d) ((st p).reg s)
  | .scale a d => setAll st d fun p => scale a ((st p).reg d)
  | .copy d s => setAll st d fun p => (st p).reg s
  | .dot x y => see st (dot DI DJ (fun p => (st p).reg x) fun p => (st p).reg y)
  | .norm x => see st (norm sqrt DI DJ fun p => (st p).reg x)

/-- The result of at most `n` operations. `deadlock`: two processes want to perform different operations, so that a
message is waited for
for ever. (Models: no code of its own.) -/
inductive Out (α : Type)
  | running (s : α)
  | finished (s : α)
  | deadlock

/-- The processes run the solver: each decides by the scalars it has seen itself. `root` is any process. (Models:
dune/python/mmesh/jacobian_iterative.hh:322.) -/
def run [DecidableEq K] (sqrt : K → K) (DI : Dist P I) (DJ : Dist P J) (M : P → Blocks I J K) (solver : Solver K) (root : P) :
    Nat → (P → Proc I J K) → Out (P → Proc I J K)
  | 0, st => .running st
  | n + 1, st =>
    if ∀ p, solver (st p).seen = solver (st root).seen then
      match solver (st root).seen with
      | none => .finished st
      | some o => run sqrt DI DJ M solver root n (perform sqrt DI DJ M st o)
    else .deadlock

/-- The initial registers (jacobian_iterative.hh:256-257, 302-303, 322): 0 is `x_`, 1 is `b_`. -/
def start (x b : Vec I J K) : Proc I J K := ⟨fun n => if n = 0 then x else if n = 1 then b else (fun _ => 0, fun _ => 0), []⟩

/-- jacobian_iterative.hh:289-328 `solve`: `x` is the member `x_` before, `b` the right hand side; the result is `x_` afterwards and the functions
`u`, `t` after the communication. The result object `res` of the solver is not looked at. No result if the solver does not end within `n`
operations (the number of iterations is limited, line 313) or the processes wait for each other. -/
def solve [DecidableEq K] (sqrt : K → K) (DI : Dist P I) (DJ : Dist P J) (M : P → Blocks I J K) (solver : Solver K) (root : P) (n : Nat)
    (x b : P → Vec I J K) : Option ((P → Vec I J K) × (P → Vec I J K)) :=
  match run sqrt DI DJ M solver root n (fun p => start (x p) (b p)) with
  | .finished st => some (fun p => (st p).reg 0, communicate DI DJ fun p => (st p).reg 0)
  | _ => none

end Verif.ParSolve
