import Mathlib.Algebra.Order.Field.Basic
import Mathlib.Algebra.BigOperators.Group.Finset.Basic
import Mathlib.Logic.Function.Basic

/-!
# The coupled Jacobian (model)

dune/python/mmesh/jacobian.hh. `double` is modelled by an ordered field. A discrete function is its vector of degrees of
freedom (dofs), a function of the dof number; an element has a list of dof numbers. The integrals of the dune-fem schemes
and the callback are arbitrary functions of the dof vectors.
-/

namespace Verif.Jacobian

variable {K S : Type*} [Field K] [LinearOrder K]

/-- What the code is given. `tdofs`/`udofs`: dofs of an interface element/of a bulk element. `inside`/`outside`: the
bulk
elements at an interface element (`none`: the interface element lies on the domain boundary). `facets`: the interface
elements among the intersections of a bulk element. `cb`: the data the callback computes from the current dofs of the
interface and of the bulk function (a simplification: the callback has no other memory). `skel`: `addSkeletonIntegral`
of the bulk scheme, the contributions to the local dofs inside and outside. `interior`: `addInteriorIntegral` of the
interface scheme. (Models: dune/python/mmesh/jacobian.hh:152-162.) -/
structure Problem (K S : Type*) where
  eps : K
  tdofs : ℕ → List ℕ
  udofs : ℕ → List ℕ
  inside : ℕ → ℕ
  outside : ℕ → Option ℕ
  facets : ℕ → List ℕ
  cb : (ℕ → K) → (ℕ → K) → S
  skel : ℕ → S → (ℕ → K) → (ℕ → K) → (ℕ → K) × (ℕ → K)
  interior : ℕ → S → (ℕ → K) → (ℕ → K) → ℕ → K

/-- `DiscreteFunction::addLocalDofs` (dune-fem). (Models: called in dune/python/mmesh/jacobian.hh:340-341.) -/
def addLocalDofs (dofs : List ℕ) (v : ℕ → K) (w : ℕ → K) : ℕ → K :=
  dofs.zipIdx.foldl (fun w p => Function.update w p.1 (w p.1 + v p.2)) w

/-- One row of `addLocalMatrix`. (Models: called in dune/python/mmesh/jacobian.hh:365-366.) -/
def addRow (cols : List ℕ) (M : ℕ → ℕ → K) (B : ℕ → ℕ → K) (p : ℕ × ℕ) : ℕ → ℕ → K :=
  cols.zipIdx.foldl (fun B q => Function.update B p.1 (Function.update (B p.1) q.1 (B p.1 q.1 + M p.2 q.2))) B

/-- `SparseRowLinearOperator::addLocalMatrix` (dune-fem). (Models: called in dune/python/mmesh/jacobian.hh:365-366.)
-/
def addLocalMatrix (rows cols : List ℕ) (M : ℕ → ℕ → K) (B : ℕ → ℕ → K) : ℕ → ℕ → K :=
  rows.zipIdx.foldl (addRow cols M) B

/-- jacobian.hh:333-338, 346-350 (`assembleB`) and 421-426, 431-435 (`assembleC`): change dof `k` of `x` by `-h`, call
the callback and integrate (`run`), restore, change it by `h`, call the callback and integrate, restore. Returns the
vector, the data of the callback, the two integrals and `h`. -/
def diffDof {R : Type*} (eps : K) (run : (ℕ → K) → S × R) (x : ℕ → K) (k : ℕ) : (ℕ → K) × S × R × R × K :=
  let h := max (x k * eps) eps
  let x1 := Function.update x k (x k - h)
  let r1 := run x1
  let x2 := Function.update x1 k (x1 k + h)
  let x3 := Function.update x2 k (x2 k + h)
  let r3 := run x3
  let x4 := Function.update x3 k (x3 k - h)
  (x4, r3.1, r1.2, r3.2, h)

/-- jacobian.hh:325-326, 340-356 (416, 428-438): the global function `dF`: clear, add the first integral, multiply by -1, add
the second integral, divide by `2 * h`. -/
def difference (dofs : List ℕ) (Fm Fp : ℕ → K) (h : K) : ℕ → K :=
  let d0 : ℕ → K := fun _ => 0
  let d1 := addLocalDofs dofs Fm d0
  let d2 : ℕ → K := fun r => d1 r * (-1)
  let d3 := addLocalDofs dofs Fp d2
  fun r => d3 r / (2 * h)

/-- jacobian.hh:358-362 (440-441): `localMatrix.set(j, i, dFLocal[j])` for all `j`. -/
def setColumn (dofs : List ℕ) (i : ℕ) (d : ℕ → K) (M : ℕ → ℕ → K) : ℕ → ℕ → K :=
  dofs.zipIdx.foldl (fun M p => Function.update M p.2 (Function.update (M p.2) i (d p.1))) M

/-- State of the loops of `assembleB`: the dofs of the interface function, the data of the callback, the matrix.
(Models: dune/python/mmesh/jacobian.hh:257-369.) -/
structure StB (K S : Type*) where
  t : ℕ → K
  data : S
  B : ℕ → ℕ → K

/-- What `run` does in `assembleB`: the callback sees the current dofs, then the skeleton integral. (Models:
dune/python/mmesh/jacobian.hh:335-337.) -/
def runB (P : Problem K S) (u : ℕ → K) (e : ℕ) (t : ℕ → K) : S × ((ℕ → K) × (ℕ → K)) :=
  (P.cb t u, P.skel e (P.cb t u) t u)

/-- jacobian.hh:324-363: one pass of the loop over the local dofs `i` of the interface element; `q` is the pair of the
global dof number and `i`. -/
def dofB (P : Problem K S) (u : ℕ → K) (e a b : ℕ) (s : (ℕ → K) × S × (ℕ → ℕ → K) × (ℕ → ℕ → K)) (q : ℕ × ℕ) :
    (ℕ → K) × S × (ℕ → ℕ → K) × (ℕ → ℕ → K) :=
  let r := diffDof P.eps (runB P u e) s.1 q.1
  let dIn := difference (P.udofs a) r.2.2.1.1 r.2.2.2.1.1 r.2.2.2.2
  let dOut := difference (P.udofs b) r.2.2.1.2 r.2.2.2.1.2 r.2.2.2.2
  (r.1, r.2.1, setColumn (P.udofs a) q.2 dIn s.2.2.1, setColumn (P.udofs b) q.2 dOut s.2.2.2)

/-- jacobian.hh:295-367: one pass of the loop over the interface elements. `none`: there is no outside element
(`outside()` of a boundary intersection is undefined). -/
def elementB (P : Problem K S) (u : ℕ → K) (st : StB K S) (e : ℕ) : Option (StB K S) :=
  (P.outside e).map fun b =>
    let a := P.inside e
    let s := (P.tdofs e).zipIdx.foldl (dofB P u e a b) (st.t, st.data, fun _ _ => 0, fun _ _ => 0)
    let B1 := addLocalMatrix (P.udofs a) (P.tdofs e) s.2.2.1 st.B
    ⟨s.1, s.2.1, addLocalMatrix (P.udofs b) (P.tdofs e) s.2.2.2 B1⟩

/-- jacobian.hh:180-181, 257-369 `B_.clear(); assembleB(scheme_, th, uh)`; `es` are the interface elements. -/
def assembleB (P : Problem K S) (es : List ℕ) (t u : ℕ → K) (data : S) : Option (StB K S) :=
  es.foldlM (elementB P u) ⟨t, data, fun _ _ => 0⟩

/-- State of the loops of `assembleC`. (Models: dune/python/mmesh/jacobian.hh:371-449.) -/
structure StC (K S : Type*) where
  u : ℕ → K
  data : S
  C : ℕ → ℕ → K

/-- What `run` does in `assembleC`. (Models: dune/python/mmesh/jacobian.hh:423-425.) -/
def runC (P : Problem K S) (t : ℕ → K) (e : ℕ) (u : ℕ → K) : S × (ℕ → K) :=
  (P.cb t u, P.interior e (P.cb t u) t u)

/-- jacobian.hh:415-442: one pass of the loop over the local dofs of the bulk element. -/
def dofC (P : Problem K S) (t : ℕ → K) (e : ℕ) (s : (ℕ → K) × S × (ℕ → ℕ → K)) (q : ℕ × ℕ) :
    (ℕ → K) × S × (ℕ → ℕ → K) :=
  let r := diffDof P.eps (runC P t e) s.1 q.1
  let d := difference (P.tdofs e) r.2.2.1 r.2.2.2.1 r.2.2.2.2
  (r.1, r.2.1, setColumn (P.tdofs e) q.2 d s.2.2)

/-- jacobian.hh:401-445: one intersection of the bulk element `b` that is the interface element `e`. -/
def facetC (P : Problem K S) (t : ℕ → K) (b : ℕ) (st : StC K S) (e : ℕ) : StC K S :=
  let s := (P.udofs b).zipIdx.foldl (dofC P t e) (st.u, st.data, fun _ _ => 0)
  ⟨s.1, s.2.1, addLocalMatrix (P.tdofs e) (P.udofs b) s.2.2 st.C⟩

/-- jacobian.hh:183-184, 371-449 `C_.clear(); assembleC(ischeme_, uh, th)`; `bs` are the bulk elements. -/
def assembleC (P : Problem K S) (bs : List ℕ) (t u : ℕ → K) (data : S) : StC K S :=
  bs.foldl (fun st b => (P.facets b).foldl (facetC P t b) st) ⟨u, data, fun _ _ => 0⟩

/-! ### The Newton method around it -/

/-- The functions of a Newton method: interface function, bulk function, data of the callback. (Models:
python/dune/mmesh/_solve.py:147-160.) -/
structure World (K S : Type*) where
  t : ℕ → K
  u : ℕ → K
  data : S

/-- jacobian.hh:176-185 `update`: the Jacobians of the two schemes (blocks `A` and `D`) are evaluated, then `B` and `C`
are assembled. Returns the state, the record of what `A` and `D` were evaluated for, and the blocks `B` and `C`. -/
def update (P : Problem K S) (es bs : List ℕ) (w : World K S) :
    Option (World K S × List (World K S) × (ℕ → ℕ → K) × (ℕ → ℕ → K)) :=
  (assembleB P es w.t w.u w.data).map fun sb =>
    let sc := assembleC P bs sb.t w.u sb.data
    (⟨sb.t, sc.u, sc.data⟩, [w, w], sb.B, sc.C)

/-- _solve.py:190-204, one pass: update, solve, subtract, call the callback, evaluate the two residuals. `step` is the
result of the linear solver (any vectors). Returns the state and the record of all evaluations. -/
def newtonPass (P : Problem K S) (es bs : List ℕ) (w : World K S) (step : (ℕ → K) × (ℕ → K)) :
    Option (World K S × List (World K S)) :=
  (update P es bs w).map fun r =>
    let t := fun i => r.1.t i - step.1 i
    let u := fun i => r.1.u i - step.2 i
    let w' : World K S := ⟨t, u, P.cb t u⟩
    (w', r.2.1 ++ [w', w'])

/-- The loop, for the results `steps` of the linear solver in the passes that are made. (Models:
python/dune/mmesh/_solve.py:190-218.) -/
def newtonLoop (P : Problem K S) (es bs : List ℕ) (w : World K S) :
    List ((ℕ → K) × (ℕ → K)) → Option (World K S × List (World K S))
  | [] => some (w, [])
  | s :: steps => (newtonPass P es bs w s).bind fun r =>
    (newtonLoop P es bs r.1 steps).map fun r' => (r'.1, r.2 ++ r'.2)

/-- _solve.py:155-160, 190-218 `monolithicSolve` as far as evaluations and calls are concerned. -/
def newton (P : Problem K S) (es bs : List ℕ) (t u : ℕ → K) (steps : List ((ℕ → K) × (ℕ → K))) :
    Option (World K S × List (World K S)) :=
  let w : World K S := ⟨t, u, P.cb t u⟩
  (newtonLoop P es bs w steps).map fun r => (r.1, [w, w] ++ r.2)

/-! ### The block system -/

/-- A compressed row matrix: for each row the list of its columns and values. (Models:
dune/python/mmesh/jacobian.hh:195-198.) -/
abbrev CRS (K : Type*) := List (List (ℕ × K))

/-- The matrix for the solver; `none`: not in the pattern. (Models: dune/python/mmesh/jacobian.hh:146, 457.) -/
abbrev Pattern (K : Type*) := ℕ → ℕ → Option K

/-- jacobian.hh:237-247 `addBlock` in `setup()`: `M_.entry(r, c) = v` creates the entry. -/
def addBlock (A : CRS K) (row0 col0 : ℕ) (M : Pattern K) : Pattern K :=
  A.zipIdx.foldl (fun M p => p.1.foldl (fun M q =>
    Function.update M (row0 + p.2) (Function.update (M (row0 + p.2)) (col0 + q.1) (some q.2))) M) M

/-- jacobian.hh:224-255 `setup()`: `n` is the number of rows of `B`. -/
def setup (A B C D : CRS K) (n : ℕ) : Pattern K :=
  addBlock D n n (addBlock C n 0 (addBlock B 0 n (addBlock A 0 0 fun _ _ => none)))

/-- jacobian.hh:193-203 `setBlock` in `solve`: `M_[r][c] = v`; `none`: the entry is not in the pattern (undefined). -/
def setBlock (A : CRS K) (row0 col0 : ℕ) (M : Pattern K) : Option (Pattern K) :=
  A.zipIdx.foldlM (fun M p => p.1.foldlM (fun (M : Pattern K) q =>
    match M (row0 + p.2) (col0 + q.1) with
    | none => none
    | some _ => some (Function.update M (row0 + p.2) (Function.update (M (row0 + p.2)) (col0 + q.1) (some q.2)))) M) M

/-- jacobian.hh:205-208. -/
def setBlocks (A B C D : CRS K) (n : ℕ) (M : Pattern K) : Option (Pattern K) := do
  let M ← setBlock A 0 0 M
  let M ← setBlock B 0 n M
  let M ← setBlock C n 0 M
  setBlock D n n M

/-- jacobian.hh:187-220 `solve`: set up the matrix if it is not built, write the blocks, the right hand side, let the
solver find `x`, and split it. `umfpack M b` is the result of the solver for the system of size `n + m`. -/
def solve (umfpack : (ℕ → ℕ → K) → (ℕ → K) → ℕ → K) (A B C D : CRS K) (n : ℕ) (M : Option (Pattern K)) (f g : ℕ → K) :
    Option (Pattern K × (ℕ → K) × (ℕ → K)) := do
  let M0 := M.getD (setup A B C D n)
  let M1 ← setBlocks A B C D n M0
  let b : ℕ → K := fun i => if i < n then f i else g (i - n)
  let x := umfpack (fun r c => (M1 r c).getD 0) b
  some (M1, fun i => x i, fun i => x (i + n))

end Verif.Jacobian
