import Verif.ParSolve.Model
import Mathlib.Algebra.BigOperators.Ring.Finset
import Mathlib.Algebra.Field.Rat
import Mathlib.Algebra.Order.Ring.Rat
import Mathlib.Data.Fin.VecNotation
import Mathlib.Tactic.Ring
import Mathlib.Tactic.NormNum
import Mathlib.Algebra.BigOperators.Fin

/-!
# The iterative solver on several processes (properties C95 and C96)

Specification: there are global vectors and a global matrix; the vectors of the processes are copies of parts of the global ones.
-/

namespace Verif.ParSolve

set_option linter.unusedSectionVars false

variable {P I J K : Type} [Fintype P] [DecidableEq P] [Fintype I] [Fintype J] [Field K]

/-! ### Specification -/

/-- The vectors of the processes agree with a global vector wherever a dof is present. -/
def Consistent (DI : Dist P I) (DJ : Dist P J) (x : P → Vec I J K) (X : Vec I J K) : Prop :=
  (∀ p i, DI.has p i = true → (x p).1 i = X.1 i) ∧ (∀ p j, DJ.has p j = true → (x p).2 j = X.2 j)

/-- The vectors of the processes agree with a global vector on the owners. -/
def OnOwners (DI : Dist P I) (DJ : Dist P J) (x : P → Vec I J K) (X : Vec I J K) : Prop :=
  (∀ i, (x (DI.owner i)).1 i = X.1 i) ∧ (∀ j, (x (DJ.owner j)).2 j = X.2 j)

/-- A dof is present on its owner. -/
def Owned (D : Dist P I) : Prop := ∀ i, D.has (D.owner i) i = true

/-- The local row `r` is the global row `R`, and the global row has no entries for dofs that are not present. -/
def SameRow (has : I → Bool) (r R : I → K) : Prop := ∀ k, (has k = true → r k = R k) ∧ (has k = false → R k = 0)

/-- The rows of the owned dofs are complete on the owner; nothing is said about the other rows (overlap, ghosts). -/
structure CompleteRows (DI : Dist P I) (DJ : Dist P J) (M : P → Blocks I J K) (G : Blocks I J K) : Prop where
  A : ∀ i, SameRow (DI.has (DI.owner i)) ((M (DI.owner i)).A i) (G.A i)
  B : ∀ i, SameRow (DJ.has (DI.owner i)) ((M (DI.owner i)).B i) (G.B i)
  C : ∀ j, SameRow (DI.has (DJ.owner j)) ((M (DJ.owner j)).C j) (G.C j)
  D : ∀ j, SameRow (DJ.has (DJ.owner j)) ((M (DJ.owner j)).D j) (G.D j)

/-- The global product `G X`. -/
def Blocks.times (G : Blocks I J K) (X : Vec I J K) : Vec I J K :=
  (fun i => ∑ k, G.A i k * X.1 k + ∑ l, G.B i l * X.2 l, fun j => ∑ k, G.C j k * X.1 k + ∑ l, G.D j l * X.2 l)

/-! ### Lemmas -/

theorem scalarProductDofs_eq {D : Dist P I} (hD : Owned D) {x y : P → I → K} {X Y : I → K}
    (hx : ∀ i, x (D.owner i) i = X i) (hy : ∀ i, y (D.owner i) i = Y i) :
    scalarProductDofs D x y = ∑ i, X i * Y i := by
  unfold scalarProductDofs
  rw [Finset.sum_comm]
  refine Finset.sum_congr rfl fun i _ => ?_
  rw [Finset.sum_eq_single (D.owner i)]
  · simp [hD i, hx, hy]
  · intro p _ hp
    simp [Ne.symm hp]
  · simp

theorem rowSum_eq {has : I → Bool} {r R x X : I → K} (h : SameRow has r R) (hx : ∀ k, has k = true → x k = X k) :
    rowSum has r x = ∑ k, R k * X k := by
  unfold rowSum
  refine Finset.sum_congr rfl fun k _ => ?_
  cases hk : has k with
  | true => simp [(h k).1 hk, hx k hk]
  | false => simp [(h k).2 hk]

theorem Consistent.onOwners {DI : Dist P I} {DJ : Dist P J} {x : P → Vec I J K} {X : Vec I J K} (hI : Owned DI) (hJ : Owned DJ)
    (h : Consistent DI DJ x X) : OnOwners DI DJ x X := ⟨fun i => h.1 _ i (hI i), fun j => h.2 _ j (hJ j)⟩

theorem communicate_consistent {DI : Dist P I} {DJ : Dist P J} {x : P → Vec I J K} {X : Vec I J K} (h : OnOwners DI DJ x X) :
    Consistent DI DJ (communicate DI DJ x) X := by
  constructor
  · intro p i hp
    simp [communicate, communicateDofs, hp, h.1 i]
  · intro p j hp
    simp [communicate, communicateDofs, hp, h.2 j]

theorem mv_owners {DI : Dist P I} {DJ : Dist P J} {M : P → Blocks I J K} {G : Blocks I J K} (hM : CompleteRows DI DJ M G)
    {x : P → Vec I J K} {X : Vec I J K} (hx : Consistent DI DJ x X) :
    OnOwners DI DJ (fun p => mv DI DJ p (M p) (x p)) (G.times X) := by
  constructor
  · intro i
    simp only [mv, Blocks.times]
    rw [rowSum_eq (hM.A i) (hx.1 _), rowSum_eq (hM.B i) (hx.2 _)]
  · intro j
    simp only [mv, Blocks.times]
    rw [rowSum_eq (hM.C j) (hx.1 _), rowSum_eq (hM.D j) (hx.2 _)]

/-! ### C95: scalar product, norm and operator -/

/-- **C95**: on any number of processes and for any distribution of the dofs, the scalar product counts every dof once: it is the scalar
product of the global vectors, although dofs are present on several processes. -/
theorem C95_dot {DI : Dist P I} {DJ : Dist P J} (hI : Owned DI) (hJ : Owned DJ) {x y : P → Vec I J K} {X Y : Vec I J K}
    (hx : Consistent DI DJ x X) (hy : Consistent DI DJ y Y) :
    dot DI DJ x y = ∑ i, X.1 i * Y.1 i + ∑ j, X.2 j * Y.2 j := by
  have h1 := hx.onOwners hI hJ
  have h2 := hy.onOwners hI hJ
  unfold dot
  rw [scalarProductDofs_eq hI h1.1 h2.1, scalarProductDofs_eq hJ h1.2 h2.2]

/-- **C95**: only the values on the owners matter for the scalar product. -/
theorem C95_dot_owners {DI : Dist P I} {DJ : Dist P J} (hI : Owned DI) (hJ : Owned DJ) {x y : P → Vec I J K} {X Y : Vec I J K}
    (hx : OnOwners DI DJ x X) (hy : OnOwners DI DJ y Y) :
    dot DI DJ x y = ∑ i, X.1 i * Y.1 i + ∑ j, X.2 j * Y.2 j := by
  unfold dot
  rw [scalarProductDofs_eq hI hx.1 hy.1, scalarProductDofs_eq hJ hx.2 hy.2]

/-- **C95**: the norm is the root of the sum of the squares of all entries of the global vector. -/
theorem C95_norm (sqrt : K → K) {DI : Dist P I} {DJ : Dist P J} (hI : Owned DI) (hJ : Owned DJ) {x : P → Vec I J K} {X : Vec I J K}
    (hx : Consistent DI DJ x X) :
    norm sqrt DI DJ x = sqrt (∑ i, X.1 i ^ 2 + ∑ j, X.2 j ^ 2) := by
  have h1 := hx.onOwners hI hJ
  unfold norm
  rw [scalarProductDofs_eq hI h1.1 h1.1, scalarProductDofs_eq hJ h1.2 h1.2]
  simp only [pow_two]

/-- **C95**: applying the operator to copies of a global vector gives copies of the product of the global matrix and the global vector on
all processes, if the rows of the owned dofs are complete. -/
theorem C95_apply {DI : Dist P I} {DJ : Dist P J} {M : P → Blocks I J K} {G : Blocks I J K} (hM : CompleteRows DI DJ M G)
    {x : P → Vec I J K} {X : Vec I J K} (hx : Consistent DI DJ x X) :
    Consistent DI DJ (apply DI DJ M x) (G.times X) :=
  communicate_consistent (mv_owners hM hx)

/-- **C95**: the same for `y + alpha A x`; of `y` only the values on the owners are used. -/
theorem C95_applyscaleadd {DI : Dist P I} {DJ : Dist P J} {M : P → Blocks I J K} {G : Blocks I J K} (hM : CompleteRows DI DJ M G)
    (alpha : K) {x y : P → Vec I J K} {X Y : Vec I J K} (hx : Consistent DI DJ x X) (hy : OnOwners DI DJ y Y) :
    Consistent DI DJ (applyscaleadd DI DJ M alpha x y)
      (fun i => Y.1 i + alpha * (G.times X).1 i, fun j => Y.2 j + alpha * (G.times X).2 j) := by
  have h := mv_owners hM hx
  refine communicate_consistent ⟨fun i => ?_, fun j => ?_⟩
  · have := h.1 i
    simp only at this ⊢
    rw [this, hy.1]
  · have := h.2 j
    simp only at this ⊢
    rw [this, hy.2]

/-! ### C96: the solver -/

/-- The distribution on a single process. -/
def single (I : Type) : Dist Unit I := ⟨fun _ _ => true, fun _ => ()⟩

/-- The states of the processes are copies of the state of a single process. -/
def CopyOf (DI : Dist P I) (DJ : Dist P J) (st : P → Proc I J K) (S : Proc I J K) : Prop :=
  (∀ n, Consistent DI DJ (fun p => (st p).reg n) (S.reg n)) ∧ ∀ p, (st p).seen = S.seen

theorem single_owned : Owned (single I) := fun _ => rfl

theorem single_rows (G : Blocks I J K) : CompleteRows (single I) (single J) (fun _ => G) G :=
  ⟨fun _ _ => ⟨fun _ => rfl, fun h => by simp [single] at h⟩, fun _ _ => ⟨fun _ => rfl, fun h => by simp [single] at h⟩,
   fun _ _ => ⟨fun _ => rfl, fun h => by simp [single] at h⟩, fun _ _ => ⟨fun _ => rfl, fun h => by simp [single] at h⟩⟩

theorem single_consistent (X : Vec I J K) : Consistent (single I) (single J) (fun _ => X) X := ⟨fun _ _ _ => rfl, fun _ _ _ => rfl⟩

theorem single_eq {x : Unit → Vec I J K} {X : Vec I J K} (h : Consistent (single I) (single J) x X) (p : Unit) : x p = X :=
  Prod.ext (funext fun i => h.1 p i rfl) (funext fun j => h.2 p j rfl)

theorem copy_set {DI : Dist P I} {DJ : Dist P J} {st : P → Proc I J K} {S : Proc I J K} (h : CopyOf DI DJ st S) (n : Nat)
    {v : P → Vec I J K} {V : Vec I J K} (hv : Consistent DI DJ v V) : CopyOf DI DJ (setAll st n v) (S.set n V) := by
  refine ⟨fun m => ?_, fun p => by simp [setAll, Proc.set, h.2 p]⟩
  by_cases hm : m = n
  · simpa [setAll, Proc.set, hm] using hv
  · simpa [setAll, Proc.set, hm] using h.1 m

theorem copy_see {DI : Dist P I} {DJ : Dist P J} {st : P → Proc I J K} {S : Unit → Proc I J K} (h : CopyOf DI DJ st (S ())) {a b : K}
    (hab : a = b) : CopyOf DI DJ (see st a) (see S b ()) :=
  ⟨h.1, fun p => by simp [see, h.2 p, hab]⟩

theorem perform_copy (sqrt : K → K) {DI : Dist P I} {DJ : Dist P J} (hI : Owned DI) (hJ : Owned DJ) {M : P → Blocks I J K}
    {G : Blocks I J K} (hM : CompleteRows DI DJ M G) {st : P → Proc I J K} {S : Unit → Proc I J K} (h : CopyOf DI DJ st (S ())) (o : Op K) :
    CopyOf DI DJ (perform sqrt DI DJ M st o) (perform sqrt (single I) (single J) (fun _ => G) S o ()) := by
  have hs : ∀ n, Consistent (single I) (single J) (fun p => (S p).reg n) ((S ()).reg n) := fun n => single_consistent ((S ()).reg n)
  cases o with
  | apply d s =>
    refine copy_set h d ?_
    rw [single_eq (C95_apply (single_rows G) (hs s))]
    exact C95_apply hM (h.1 s)
  | applyscaleadd a d s =>
    refine copy_set h d ?_
    rw [single_eq (C95_applyscaleadd (single_rows G) a (hs s) ((hs d).onOwners single_owned single_owned))]
    exact C95_applyscaleadd hM a (h.1 s) ((h.1 d).onOwners hI hJ)
  | axpy a d s =>
    refine copy_set h d ⟨fun p i hp => ?_, fun p j hp => ?_⟩
    · have h1 := (h.1 d).1 p i hp
      have h2 := (h.1 s).1 p i hp
      simp only at h1 h2
      simp [axpy, h1, h2]
    · have h1 := (h.1 d).2 p j hp
      have h2 := (h.1 s).2 p j hp
      simp only at h1 h2
      simp [axpy, h1, h2]
  | scale a d =>
    refine copy_set h d ⟨fun p i hp => ?_, fun p j hp => ?_⟩
    · have h1 := (h.1 d).1 p i hp
      simp only at h1
      simp [scale, h1]
    · have h1 := (h.1 d).2 p j hp
      simp only at h1
      simp [scale, h1]
  | copy d s => exact copy_set h d (h.1 s)
  | dot x y =>
    refine copy_see h ?_
    rw [C95_dot hI hJ (h.1 x) (h.1 y), C95_dot single_owned single_owned (hs x) (hs y)]
  | norm x =>
    refine copy_see h ?_
    rw [C95_norm sqrt hI hJ (h.1 x), C95_norm sqrt single_owned single_owned (hs x)]

variable [DecidableEq K]

/-- What the run on several processes has in common with the run on one process. -/
inductive SameOut (DI : Dist P I) (DJ : Dist P J) : Out (P → Proc I J K) → Out (Unit → Proc I J K) → Prop
  | running {s S} : CopyOf DI DJ s (S ()) → SameOut DI DJ (.running s) (.running S)
  | finished {s S} : CopyOf DI DJ s (S ()) → SameOut DI DJ (.finished s) (.finished S)

/-- **C96**: whatever the solver, however many steps and processes: the processes never wait for each other, and at every moment they hold copies of
the vectors and the scalars which the same solver holds on a single process with the global matrix. -/
theorem C96_lockstep (sqrt : K → K) {DI : Dist P I} {DJ : Dist P J} (hI : Owned DI) (hJ : Owned DJ) {M : P → Blocks I J K}
    {G : Blocks I J K} (hM : CompleteRows DI DJ M G) (solver : Solver K) (root : P) (n : Nat) {st : P → Proc I J K}
    {S : Unit → Proc I J K} (h : CopyOf DI DJ st (S ())) :
    SameOut DI DJ (run sqrt DI DJ M solver root n st) (run sqrt (single I) (single J) (fun _ => G) solver () n S) := by
  induction n generalizing st S with
  | zero => exact .running h
  | succ n ih =>
    unfold run
    rw [if_pos (fun p => by rw [h.2 p, h.2 root]), if_pos (fun _ => rfl), h.2 root]
    cases solver (S ()).seen with
    | none => exact .finished h
    | some o => exact ih (perform_copy sqrt hI hJ hM h o)

theorem start_copy {DI : Dist P I} {DJ : Dist P J} {x b : P → Vec I J K} {X B : Vec I J K} (hx : Consistent DI DJ x X)
    (hb : Consistent DI DJ b B) : CopyOf DI DJ (fun p => start (x p) (b p)) (start X B) := by
  refine ⟨fun n => ?_, fun p => rfl⟩
  unfold start
  by_cases h0 : n = 0
  · simpa [h0] using hx
  · by_cases h1 : n = 1
    · simpa [h1] using hb
    · simp only [h0, h1, if_false]
      exact ⟨fun _ _ _ => rfl, fun _ _ _ => rfl⟩

/-- **C96**: a solve on several processes ends if and only if the solve on one process with the global matrix ends, and it gives every
process a copy of the solution on one process, both in the functions returned and in the vector kept as the initial guess of the next solve. -/
theorem C96_solve (sqrt : K → K) {DI : Dist P I} {DJ : Dist P J} (hI : Owned DI) (hJ : Owned DJ) {M : P → Blocks I J K}
    {G : Blocks I J K} (hM : CompleteRows DI DJ M G) (solver : Solver K) (root : P) (n : Nat) {x b : P → Vec I J K} {X B : Vec I J K}
    (hx : Consistent DI DJ x X) (hb : Consistent DI DJ b B) :
    ((solve sqrt DI DJ M solver root n x b).isSome ↔
      (solve sqrt (single I) (single J) (fun _ => G) solver () n (fun _ => X) (fun _ => B)).isSome) ∧
    ∀ kept u, solve sqrt DI DJ M solver root n x b = some (kept, u) →
      ∃ U, solve sqrt (single I) (single J) (fun _ => G) solver () n (fun _ => X) (fun _ => B) = some (fun _ => U, fun _ => U) ∧
        Consistent DI DJ kept U ∧ Consistent DI DJ u U := by
  have h := C96_lockstep sqrt hI hJ hM solver root n (S := fun _ => start X B) (start_copy hx hb)
  unfold solve
  generalize run sqrt DI DJ M solver root n (fun p => start (x p) (b p)) = r at h ⊢
  generalize run sqrt (single I) (single J) (fun _ => G) solver () n (fun _ => start X B) = R at h ⊢
  cases h with
  | running _ => simp
  | @finished s S hc =>
    refine ⟨by simp, ?_⟩
    intro kept u he
    simp only [Option.some.injEq, Prod.mk.injEq] at he
    obtain ⟨rfl, rfl⟩ := he
    refine ⟨(S ()).reg 0, ?_, hc.1 0, communicate_consistent ((hc.1 0).onOwners hI hJ)⟩
    have h1 : communicate (single I) (single J) (fun p => (S p).reg 0) = fun _ => (S ()).reg 0 := by
      funext p
      exact single_eq (communicate_consistent ((single_consistent ((S ()).reg 0)).onOwners single_owned single_owned)) p
    simp only [Option.some.injEq, Prod.mk.injEq]
    exact ⟨trivial, h1⟩

/-- **C96**: solvers that begin with the defect `b - A x` only need the right hand side on the owners: the values in the overlap may be
incomplete, as after a local assembly. -/
theorem C96_rhs (sqrt : K → K) {DI : Dist P I} {DJ : Dist P J} (hI : Owned DI) (hJ : Owned DJ) {M : P → Blocks I J K}
    {G : Blocks I J K} (hM : CompleteRows DI DJ M G) (solver : Solver K) (alpha : K) (hs : solver [] = some (.applyscaleadd alpha 1 0))
    (root : P) (n : Nat) {x b : P → Vec I J K} {X B : Vec I J K} (hx : Consistent DI DJ x X) (hb : OnOwners DI DJ b B) :
    ∀ kept u, solve sqrt DI DJ M solver root n x b = some (kept, u) →
      ∃ U, solve sqrt (single I) (single J) (fun _ => G) solver () n (fun _ => X) (fun _ => B) = some (fun _ => U, fun _ => U) ∧
        Consistent DI DJ kept U ∧ Consistent DI DJ u U := by
  cases n with
  | zero => simp [solve, run]
  | succ n =>
    -- the state after the first operation does not depend on the other values of `b`
    have key : ∀ c : P → Vec I J K, (∀ i, (c (DI.owner i)).1 i = B.1 i) → (∀ j, (c (DJ.owner j)).2 j = B.2 j) →
        CopyOf DI DJ (perform sqrt DI DJ M (fun p => start (x p) (c p)) (.applyscaleadd alpha 1 0))
          (perform sqrt (single I) (single J) (fun _ => G) (fun _ => start X B) (.applyscaleadd alpha 1 0) ()) := by
      intro c h1 h2
      refine ⟨fun m => ?_, fun p => rfl⟩
      have e := single_eq (C95_applyscaleadd (single_rows G) alpha (single_consistent X)
        ((single_consistent B).onOwners single_owned single_owned)) ()
      have f := C95_applyscaleadd hM alpha hx (y := c) (Y := B) ⟨h1, h2⟩
      by_cases h1 : m = 1
      · subst h1
        simp only [perform, setAll, Proc.set, start, if_true]
        simpa [e] using f
      · by_cases h0 : m = 0
        · subst h0
          simpa [perform, setAll, Proc.set, start] using hx
        · simp only [perform, setAll, Proc.set, start, h0, h1, if_false]
          exact ⟨fun _ _ _ => rfl, fun _ _ _ => rfl⟩
    have h := C96_lockstep sqrt hI hJ hM solver root n (key b hb.1 hb.2)
    intro kept u he
    unfold solve at he ⊢
    have e1 : run sqrt DI DJ M solver root (n + 1) (fun p => start (x p) (b p)) =
        run sqrt DI DJ M solver root n (perform sqrt DI DJ M (fun p => start (x p) (b p)) (.applyscaleadd alpha 1 0)) := by
      rw [run]
      simp [start, hs]
    have e2 : run sqrt (single I) (single J) (fun _ => G) solver () (n + 1) (fun _ => start X B) =
        run sqrt (single I) (single J) (fun _ => G) solver () n
          (perform sqrt (single I) (single J) (fun _ => G) (fun _ => start X B) (.applyscaleadd alpha 1 0)) := by
      rw [run]
      simp [start, hs]
    rw [e1] at he
    rw [e2]
    generalize run sqrt DI DJ M solver root n _ = r at h he
    generalize run sqrt (single I) (single J) (fun _ => G) solver () n _ = R at h ⊢
    cases h with
    | running _ => simp at he
    | @finished s S hc =>
      simp only [Option.some.injEq, Prod.mk.injEq] at he
      obtain ⟨rfl, rfl⟩ := he
      refine ⟨(S ()).reg 0, ?_, hc.1 0, communicate_consistent ((hc.1 0).onOwners hI hJ)⟩
      have h1 : communicate (single I) (single J) (fun p => (S p).reg 0) = fun _ => (S ()).reg 0 := by
        funext p
        exact single_eq (communicate_consistent ((single_consistent ((S ()).reg 0)).onOwners single_owned single_owned)) p
      simp only [Option.some.injEq, Prod.mk.injEq]
      exact ⟨trivial, h1⟩

/-! ### A concrete case

Two processes, three bulk dofs in a row, one interface dof between the first two: process 0 owns dof 0 and the interface dof, process 1 owns dofs 1 and
2. Dof 1 and the interface dof are present on both. -/

def exI : Dist (Fin 2) (Fin 3) := ⟨![![true, true, false], ![true, true, true]], ![0, 1, 1]⟩

def exJ : Dist (Fin 2) (Fin 1) := ⟨![![true], ![true]], ![0]⟩

def exG : Blocks (Fin 3) (Fin 1) ℚ :=
  ⟨![![2, -1, 0], ![-1, 2, -1], ![0, -1, 2]], ![![1], ![-1], ![0]], ![![1, 1, 0]], ![![4]]⟩

/-- Process 0 has incomplete rows of dof 1, process 1 of dof 0 and of the interface dof. -/
def exM : Fin 2 → Blocks (Fin 3) (Fin 1) ℚ :=
  ![⟨![![2, -1, 0], ![-1, 1, 0], ![0, 0, 0]], ![![1], ![-1], ![0]], ![![1, 1, 0]], ![![4]]⟩,
    ⟨![![1, -1, 0], ![-1, 2, -1], ![0, -1, 2]], ![![0], ![-1], ![0]], ![![0, 1, 0]], ![![2]]⟩]

theorem exI_owned : Owned exI := by unfold Owned; decide

theorem exJ_owned : Owned exJ := by unfold Owned; decide

theorem exM_complete : CompleteRows exI exJ exM exG := by
  constructor <;> (unfold SameRow; decide +kernel)

def exX : Vec (Fin 3) (Fin 1) ℚ := (![1, 2, 3], ![5])

/-- Process 0 does not know dof 2. -/
def exx : Fin 2 → Vec (Fin 3) (Fin 1) ℚ := ![(![1, 2, 77], ![5]), (![1, 2, 3], ![5])]

theorem exx_consistent : Consistent exI exJ exx exX := by
  constructor <;> decide +kernel

/-- Every dof counts once: `1 + 4 + 9 + 25`. -/
example : dot exI exJ exx exx = 39 := by decide +kernel

example : ∑ i, exX.1 i * exX.1 i + ∑ j, exX.2 j * exX.2 j = 39 := by decide +kernel

example : Consistent exI exJ (apply exI exJ exM exx) (exG.times exX) := C95_apply exM_complete exx_consistent

example : (exG.times exX) = (![5, -5, 4], ![23]) := by
  unfold Blocks.times exX exG
  refine Prod.ext ?_ ?_ <;> funext k <;> revert k <;> decide +kernel

/-- Without the communication the value of dof 1 on process 0 would be wrong. -/
example : (mv exI exJ 0 (exM 0) (exx 0)).1 1 = -4 ∧ (apply exI exJ exM exx 0).1 1 = -5 := by decide +kernel

/-- A step of steepest descent: `b -= A x`, `q = A b`, `x += (b·b)/(b·q) b`, `b -= (b·b)/(b·q) q`, norm of `b`. -/
def descent : Solver ℚ
  | [] => some (.applyscaleadd (-1) 1 0)
  | [_] => some (.apply 2 1)
  | [_, _] => some (.dot 1 1)
  | [_, _, _] => some (.dot 1 2)
  | [_, _, some a, some b] => if b = 0 then none else some (.axpy (a / b) 0 1)
  | [_, _, some a, some b, _] => some (.axpy (-a / b) 1 2)
  | [_, _, _, _, _, _] => some (.norm 1)
  | _ => none

/-- The right hand side is incomplete in the overlap. -/
def exb : Fin 2 → Vec (Fin 3) (Fin 1) ℚ := ![(![6, 100, 77], ![23]), (![0, -5, 4], ![0])]

def exB : Vec (Fin 3) (Fin 1) ℚ := (![6, -5, 4], ![23])

theorem exb_owners : OnOwners exI exJ exb exB := by
  constructor <;> decide +kernel

/-- The defect is `(1, 0, 0, 0)` and the step is `1/2`. -/
example : ∃ r, solve id exI exJ exM descent 0 8 exx exb = some r ∧ (r.2 0).1 0 = 3 / 2 ∧ (r.2 1).1 0 = 3 / 2 ∧ (r.2 0).1 1 = 2 ∧
    (r.2 0).2 0 = 5 := by
  have h : ((solve id exI exJ exM descent 0 8 exx exb).map fun r => ((r.2 0).1 0, (r.2 1).1 0, (r.2 0).1 1, (r.2 0).2 0)) =
      some (3 / 2, 3 / 2, 2, 5) := by decide +kernel
  obtain ⟨r, hr, he⟩ := Option.map_eq_some_iff.mp h
  simp only [Prod.mk.injEq] at he
  exact ⟨r, hr, he⟩

example (kept u) (h : solve id exI exJ exM descent 0 8 exx exb = some (kept, u)) :
    ∃ U, solve id (single (Fin 3)) (single (Fin 1)) (fun _ => exG) descent () 8 (fun _ => exX) (fun _ => exB) = some (fun _ => U, fun _ => U) ∧
      Consistent exI exJ kept U ∧ Consistent exI exJ u U :=
  C96_rhs id exI_owned exJ_owned exM_complete descent (-1) rfl 0 8 exx_consistent exb_owners kept u h

/-! ### What is not guaranteed -/

/-- **C97** (not guaranteed): the functions returned need not solve the system, and nothing tells the caller: a solver that stops because of the maximal number of
iterations leaves the same kind of result (its result object is not looked at). -/
theorem C97_unconverged_false :
    ¬ ∀ (x b : Fin 2 → Vec (Fin 3) (Fin 1) ℚ) (X B : Vec (Fin 3) (Fin 1) ℚ), Consistent exI exJ x X → Consistent exI exJ b B →
      ∀ kept u U, solve id exI exJ exM descent 0 8 x b = some (kept, u) → Consistent exI exJ u U → exG.times U = B := by
  intro h
  have hc : Consistent exI exJ (fun _ => exB) exB := ⟨fun _ _ _ => rfl, fun _ _ _ => rfl⟩
  have hs : ((solve id exI exJ exM descent 0 8 exx (fun _ => exB)).map fun r =>
      ((r.2 1).1 0, (r.2 1).1 1, (r.2 1).1 2, (r.2 1).2 0)) = some (3 / 2, 2, 3, 5) := by decide +kernel
  obtain ⟨⟨kept, u⟩, hr, he⟩ := Option.map_eq_some_iff.mp hs
  obtain ⟨U, -, -, hU⟩ := (C96_solve id exI_owned exJ_owned exM_complete descent 0 8 exx_consistent hc).2 kept u hr
  have e := h exx (fun _ => exB) exX exB exx_consistent hc kept u U hr hU
  simp only [Prod.mk.injEq] at he
  have e0 : U.1 0 = 3 / 2 := by rw [← hU.1 1 0 rfl]; exact he.1
  have e1 : U.1 1 = 2 := by rw [← hU.1 1 1 rfl]; exact he.2.1
  have e2 : U.1 2 = 3 := by rw [← hU.1 1 2 rfl]; exact he.2.2.1
  have e3 : U.2 0 = 5 := by rw [← hU.2 1 0 rfl]; exact he.2.2.2
  have := congrFun (congrArg Prod.fst e) 1
  simp [Blocks.times, exG, exB, Fin.sum_univ_succ, e0, e1, e2, e3] at this
  norm_num at this

/-- **C97** (what holds): if the method finds a solution of the global system on one process, then every process gets its part of a solution. -/
theorem C97_solution_partial (sqrt : K → K) {DI : Dist P I} {DJ : Dist P J} (hI : Owned DI) (hJ : Owned DJ) {M : P → Blocks I J K}
    {G : Blocks I J K} (hM : CompleteRows DI DJ M G) (solver : Solver K) (root : P) (n : Nat) {x b : P → Vec I J K} {X B : Vec I J K}
    (hx : Consistent DI DJ x X) (hb : Consistent DI DJ b B)
    (hsol : ∀ U, solve sqrt (single I) (single J) (fun _ => G) solver () n (fun _ => X) (fun _ => B) = some U → G.times (U.2 ()) = B)
    {kept u : P → Vec I J K} (h : solve sqrt DI DJ M solver root n x b = some (kept, u)) :
    ∃ U, Consistent DI DJ u U ∧ G.times U = B ∧
      (∀ i, rowSum (DI.has (DI.owner i)) ((M (DI.owner i)).A i) (u (DI.owner i)).1 +
        rowSum (DJ.has (DI.owner i)) ((M (DI.owner i)).B i) (u (DI.owner i)).2 = (b (DI.owner i)).1 i) ∧
      (∀ j, rowSum (DI.has (DJ.owner j)) ((M (DJ.owner j)).C j) (u (DJ.owner j)).1 +
        rowSum (DJ.has (DJ.owner j)) ((M (DJ.owner j)).D j) (u (DJ.owner j)).2 = (b (DJ.owner j)).2 j) := by
  obtain ⟨U, hU, -, hu⟩ := (C96_solve sqrt hI hJ hM solver root n hx hb).2 kept u h
  have e := hsol _ hU
  have m := mv_owners hM hu
  have o := hb.onOwners hI hJ
  simp only at e
  rw [e] at m
  refine ⟨U, hu, e, fun i => ?_, fun j => ?_⟩
  · rw [o.1]; exact m.1 i
  · rw [o.2]; exact m.2 j

/-- The processes without a copy of the neighbour of an owned dof: dof 2 is owned by process 1, which lacks dof 1. -/
def badI : Dist (Fin 2) (Fin 3) := ⟨![![true, true, false], ![false, false, true]], ![0, 0, 1]⟩

/-- **C96** (not guaranteed): if the rows of the owned dofs are not complete, because the process does not know a neighbour, then the operator is not the global one. -/
theorem C96_incomplete_false :
    ¬ ∀ (x : Fin 2 → Vec (Fin 3) (Fin 1) ℚ) (X : Vec (Fin 3) (Fin 1) ℚ), Consistent badI exJ x X →
      Consistent badI exJ (apply badI exJ (fun _ => exG) x) (exG.times X) := by
  intro h
  have e := (h (fun _ => exX) exX ⟨fun _ _ _ => rfl, fun _ _ _ => rfl⟩).1 1 2 rfl
  revert e
  decide +kernel

end Verif.ParSolve
