import Verif.Jacobian.Props

/-!
# C79: the block system of the coupled Jacobian
-/

namespace Verif.Jacobian

set_option linter.unusedSectionVars false

variable {K : Type*} [Field K] [LinearOrder K]

/-- Entry `(i, j)` of a compressed row matrix, `none` if it is not stored. -/
def stored (A : CRS K) (i j : ℕ) : Option K := (((A[i]?).getD []).find? fun q => q.1 == j).map Prod.snd

/-- The value of entry `(i, j)`. -/
def value (A : CRS K) (i j : ℕ) : K := (stored A i j).getD 0

/-- The columns of a row are distinct. -/
def Distinct (A : CRS K) : Prop := ∀ row ∈ A, (row.map Prod.fst).Nodup

/-- The matrix has `n` rows and `m` columns. -/
def Size (A : CRS K) (n m : ℕ) : Prop := A.length = n ∧ ∀ row ∈ A, ∀ q ∈ row, q.1 < m

/-- Two matrices store the same entries. -/
def SamePattern (A B : CRS K) : Prop := A.map (List.map Prod.fst) = B.map (List.map Prod.fst)

/-! ### Writing blocks -/

/-- What is written to `(r, c)` by a row at `(R, c0)`. -/
def rowAt (row : List (ℕ × K)) (R c0 r c : ℕ) : Option K :=
  if r = R ∧ c0 ≤ c then (row.find? fun q => q.1 == c - c0).map Prod.snd else none

theorem row_fold (row : List (ℕ × K)) (hd : (row.map Prod.fst).Nodup) (R c0 : ℕ) (M : Pattern K) (r c : ℕ) :
    row.foldl (fun M q => Function.update M R (Function.update (M R) (c0 + q.1) (some q.2))) M r c
      = (rowAt row R c0 r c).or (M r c) := by
  induction row generalizing M with
  | nil => simp [rowAt]
  | cons q row ih =>
    rw [List.map_cons, List.nodup_cons] at hd
    rw [List.foldl_cons, ih hd.2]
    unfold rowAt
    by_cases h : r = R ∧ c0 ≤ c
    · obtain ⟨rfl, hc⟩ := h
      simp only [true_and, hc, if_true]
      by_cases hq : q.1 = c - c0
      · have hc' : c = c0 + q.1 := by omega
        have hnone : row.find? (fun x => x.1 == c - c0) = none := by
          rw [List.find?_eq_none]
          intro x hx hxq
          refine hd.1 (List.mem_map.2 ⟨x, hx, ?_⟩)
          have : x.1 = c - c0 := by simpa using hxq
          omega
        rw [hnone, List.find?_cons_of_pos (by simpa using hq), Function.update_self, hc', Function.update_self]
        rfl
      · have hc' : c ≠ c0 + q.1 := by omega
        rw [List.find?_cons_of_neg (by simpa using hq), Function.update_self, Function.update_of_ne hc']
    · simp only [if_neg h, Option.none_or]
      by_cases hr : r = R
      · subst hr
        have hc' : c ≠ c0 + q.1 := by
          intro e; exact h ⟨rfl, by omega⟩
        rw [Function.update_self, Function.update_of_ne hc']
      · rw [Function.update_of_ne hr]

/-- What is written to `(r, c)` by the block `A` at `(r0, c0)`. -/
def blockAt (A : CRS K) (r0 c0 r c : ℕ) : Option K := if r0 ≤ r ∧ c0 ≤ c then stored A (r - r0) (c - c0) else none

theorem addBlock_list (A : CRS K) (hd : Distinct A) (r0 c0 k : ℕ) (M : Pattern K) (r c : ℕ) :
    (A.zipIdx k).foldl (fun M p => p.1.foldl (fun M q =>
      Function.update M (r0 + p.2) (Function.update (M (r0 + p.2)) (c0 + q.1) (some q.2))) M) M r c
      = (blockAt A (r0 + k) c0 r c).or (M r c) := by
  induction A generalizing k M with
  | nil => simp [blockAt, stored]
  | cons row A ih =>
    rw [List.zipIdx_cons, List.foldl_cons, ih (fun x hx => hd x (List.mem_cons_of_mem _ hx))]
    simp only
    rw [row_fold row (hd row (List.mem_cons_self ..))]
    unfold blockAt rowAt
    by_cases hc : c0 ≤ c
    · by_cases hr : r = r0 + k
      · subst hr
        have : ¬ (r0 + (k + 1) ≤ r0 + k) := by omega
        simp [hc, this, stored]
      · by_cases hr' : r0 + k ≤ r
        · have h1 : r0 + (k + 1) ≤ r := by omega
          have h2 : r - (r0 + k) = r - (r0 + (k + 1)) + 1 := by omega
          simp [hc, hr, hr', h1, stored, h2]
        · have h1 : ¬ r0 + (k + 1) ≤ r := by omega
          simp [hr, hr', h1]
    · simp [hc]

theorem addBlock_apply (A : CRS K) (hd : Distinct A) (r0 c0 : ℕ) (M : Pattern K) (r c : ℕ) :
    addBlock A r0 c0 M r c = (blockAt A r0 c0 r c).or (M r c) :=
  addBlock_list A hd r0 c0 0 M r c

theorem setRow_eq (row : List (ℕ × K)) (R c0 : ℕ) (M : Pattern K) (h : ∀ q ∈ row, (M R (c0 + q.1)).isSome) :
    row.foldlM (fun (M : Pattern K) q =>
      match M R (c0 + q.1) with
      | none => none
      | some _ => some (Function.update M R (Function.update (M R) (c0 + q.1) (some q.2)))) M
      = some (row.foldl (fun M q => Function.update M R (Function.update (M R) (c0 + q.1) (some q.2))) M) := by
  induction row generalizing M with
  | nil => rfl
  | cons q row ih =>
    rw [List.foldlM_cons, List.foldl_cons]
    obtain ⟨v, hv⟩ := Option.isSome_iff_exists.1 (h q (List.mem_cons_self ..))
    simp only [hv, Option.bind_eq_bind, Option.bind_some]
    refine ih _ fun x hx => ?_
    rw [Function.update_self]
    by_cases hxq : c0 + x.1 = c0 + q.1
    · rw [hxq, Function.update_self]; rfl
    · rw [Function.update_of_ne hxq]; exact h x (List.mem_cons_of_mem _ hx)

theorem setBlock_list (A : CRS K) (hd : Distinct A) (r0 c0 k : ℕ) (M : Pattern K)
    (h : ∀ r c, (blockAt A (r0 + k) c0 r c).isSome → (M r c).isSome) :
    (A.zipIdx k).foldlM (fun M p => p.1.foldlM (fun (M : Pattern K) q =>
      match M (r0 + p.2) (c0 + q.1) with
      | none => none
      | some _ => some (Function.update M (r0 + p.2) (Function.update (M (r0 + p.2)) (c0 + q.1) (some q.2)))) M) M
      = some ((A.zipIdx k).foldl (fun M p => p.1.foldl (fun M q =>
      Function.update M (r0 + p.2) (Function.update (M (r0 + p.2)) (c0 + q.1) (some q.2))) M) M) := by
  induction A generalizing k M with
  | nil => rfl
  | cons row A ih =>
    rw [List.zipIdx_cons, List.foldlM_cons, List.foldl_cons]
    have hd1 := hd row (List.mem_cons_self ..)
    rw [setRow_eq row (r0 + k) c0 M]
    · rw [Option.bind_eq_bind, Option.bind_some]
      refine ih (fun x hx => hd x (List.mem_cons_of_mem _ hx)) (k + 1) _ fun r c hrc => ?_
      rw [row_fold row hd1]
      have : (M r c).isSome := by
        refine h r c ?_
        unfold blockAt at hrc ⊢
        split at hrc
        · rename_i hh
          have h1 : r0 + k ≤ r := by omega
          rw [if_pos ⟨h1, hh.2⟩]
          have h2 : r - (r0 + k) = r - (r0 + (k + 1)) + 1 := by omega
          rw [h2]
          simpa [stored] using hrc
        · cases hrc
      cases rowAt row (r0 + k) c0 r c with
      | none => simpa using this
      | some v => rfl
    · intro q hq
      refine h _ _ ?_
      unfold blockAt
      rw [if_pos ⟨le_rfl, by omega⟩]
      simp only [stored, Nat.sub_self, List.getElem?_cons_zero, Option.getD_some, Option.isSome_map, List.find?_isSome]
      exact ⟨q, hq, by simp⟩

theorem setBlock_eq (A : CRS K) (hd : Distinct A) (r0 c0 : ℕ) (M : Pattern K)
    (h : ∀ r c, (blockAt A r0 c0 r c).isSome → (M r c).isSome) : setBlock A r0 c0 M = some (addBlock A r0 c0 M) :=
  setBlock_list A hd r0 c0 0 M h

/-! ### Specification -/

/-- The four blocks fit together: `n` bulk dofs, `m` interface dofs. -/
structure Blocks (A B C D : CRS K) (n m : ℕ) : Prop where
  a : Size A n n
  b : Size B n m
  c : Size C m n
  d : Size D m m
  da : Distinct A
  db : Distinct B
  dc : Distinct C
  dd : Distinct D

/-- The block matrix `[A B; C D]`. -/
def blockMatrix (A B C D : CRS K) (n r c : ℕ) : Option K :=
  if r < n then (if c < n then stored A r c else stored B r (c - n))
  else (if c < n then stored C (r - n) c else stored D (r - n) (c - n))

theorem stored_none (A : CRS K) (n m : ℕ) (h : Size A n m) (i j : ℕ) (hij : n ≤ i ∨ m ≤ j) : stored A i j = none := by
  unfold stored
  rcases hij with hi | hj
  · rw [List.getElem?_eq_none (by rw [h.1]; exact hi)]; rfl
  · cases hr : A[i]? with
    | none => rfl
    | some row =>
      have hm := List.mem_of_getElem? hr
      simp only [Option.getD_some, Option.map_eq_none_iff, List.find?_eq_none]
      intro q hq hqj
      have h1 := h.2 row hm q hq
      have h2 : q.1 = j := by simpa using hqj
      omega

theorem blocks_or (A B C D : CRS K) (n m : ℕ) (h : Blocks A B C D n m) (r c : ℕ) (o : Option K) :
    (blockAt D n n r c).or ((blockAt C n 0 r c).or ((blockAt B 0 n r c).or ((blockAt A 0 0 r c).or o)))
      = (blockMatrix A B C D n r c).or o := by
  unfold blockAt blockMatrix
  simp only [Nat.zero_le, true_and, and_true, Nat.sub_zero, if_true]
  by_cases hr : r < n
  · have hr' : ¬ n ≤ r := by omega
    by_cases hc : c < n
    · have hc' : ¬ n ≤ c := by omega
      simp [hr, hc, hr', hc']
    · have hc' : n ≤ c := by omega
      rw [stored_none A n n h.a r c (Or.inr hc')]
      simp [hr, hc, hr', hc']
  · have hr' : n ≤ r := by omega
    rw [stored_none B n m h.b r (c - n) (Or.inl hr'), stored_none A n n h.a r c (Or.inl hr')]
    by_cases hc : c < n
    · have hc' : ¬ n ≤ c := by omega
      simp [hr, hc, hr', hc']
    · have hc' : n ≤ c := by omega
      rw [stored_none C m n h.c (r - n) c (Or.inr hc')]
      simp [hr, hc, hr', hc']

/-- The stored matrix (if there is one) has the pattern of the blocks. -/
def Fits (M : Option (Pattern K)) (A B C D : CRS K) (n : ℕ) : Prop :=
  ∀ P, M = some P → ∀ r c, (P r c).isSome ↔ (blockMatrix A B C D n r c).isSome

theorem or_isSome {α : Type*} (a b : Option α) : (a.or b).isSome ↔ a.isSome ∨ b.isSome := by
  cases a <;> cases b <;> simp

theorem setBlocks_eq (A B C D : CRS K) (n m : ℕ) (h : Blocks A B C D n m) (M : Pattern K)
    (hM : ∀ r c, (M r c).isSome ↔ (blockMatrix A B C D n r c).isSome) :
    setBlocks A B C D n M = some (fun r c => blockMatrix A B C D n r c) := by
  have hb := blocks_or A B C D n m h
  have sub : ∀ r c, ((blockAt D n n r c).isSome → (M r c).isSome) ∧ ((blockAt C n 0 r c).isSome → (M r c).isSome) ∧
      ((blockAt B 0 n r c).isSome → (M r c).isSome) ∧ ((blockAt A 0 0 r c).isSome → (M r c).isSome) := by
    intro r c
    have e := hb r c none
    simp only [Option.or_none] at e
    rw [hM, ← e]
    simp only [or_isSome]
    tauto
  have mono : ∀ (X : CRS K) (hX : Distinct X) (r0 c0 : ℕ) (N : Pattern K) (r c : ℕ), (N r c).isSome →
      (addBlock X r0 c0 N r c).isSome := by
    intro X hX r0 c0 N r c hN
    rw [addBlock_apply X hX, or_isSome]
    exact Or.inr hN
  unfold setBlocks
  simp only [Option.bind_eq_bind]
  rw [setBlock_eq A h.da 0 0 M fun r c hh => (sub r c).2.2.2 hh, Option.bind_some,
    setBlock_eq B h.db 0 n _ fun r c hh => mono A h.da 0 0 M r c ((sub r c).2.2.1 hh), Option.bind_some,
    setBlock_eq C h.dc n 0 _ fun r c hh => mono B h.db 0 n _ r c (mono A h.da 0 0 M r c ((sub r c).2.1 hh)),
    Option.bind_some,
    setBlock_eq D h.dd n n _ fun r c hh => mono C h.dc n 0 _ r c (mono B h.db 0 n _ r c (mono A h.da 0 0 M r c ((sub r c).1 hh)))]
  congr 1
  funext r c
  rw [addBlock_apply D h.dd, addBlock_apply C h.dc, addBlock_apply B h.db, addBlock_apply A h.da, hb]
  cases hh : blockMatrix A B C D n r c with
  | some v => rfl
  | none =>
    have := hM r c
    rw [hh] at this
    cases hm : M r c with
    | none => rfl
    | some w => rw [hm] at this; simp at this

theorem setup_eq (A B C D : CRS K) (n m : ℕ) (h : Blocks A B C D n m) :
    setup A B C D n = fun r c => blockMatrix A B C D n r c := by
  funext r c
  unfold setup
  rw [addBlock_apply D h.dd, addBlock_apply C h.dc, addBlock_apply B h.db, addBlock_apply A h.da,
    blocks_or A B C D n m h, Option.or_none]

/-- The solver solves the system it is given: all `N` equations hold. -/
def Solves (solver : (ℕ → ℕ → K) → (ℕ → K) → ℕ → K) (N : ℕ) (M : ℕ → ℕ → K) (b : ℕ → K) : Prop :=
  ∀ r < N, ∑ c ∈ Finset.range N, M r c * solver M b c = b r

/-- **C79** `solve` returns `u` and `t` with `A u + B t = f` and `C u + D t = g`, if the solver solves the one system it is
given, at the first call and at later calls as long as the blocks store the same entries. The stored matrix fits the
next call. -/
theorem C79_solve (solver : (ℕ → ℕ → K) → (ℕ → K) → ℕ → K) (A B C D : CRS K) (n m : ℕ) (h : Blocks A B C D n m)
    (M : Option (Pattern K)) (hM : Fits M A B C D n) (f g : ℕ → K)
    (hsol : Solves solver (n + m) (fun r c => (blockMatrix A B C D n r c).getD 0) (fun i => if i < n then f i else g (i - n))) :
    ∃ M' u t, solve solver A B C D n M f g = some (M', u, t) ∧ Fits (some M') A B C D n ∧
      (∀ r < n, ∑ c ∈ Finset.range n, value A r c * u c + ∑ c ∈ Finset.range m, value B r c * t c = f r) ∧
      (∀ r < m, ∑ c ∈ Finset.range n, value C r c * u c + ∑ c ∈ Finset.range m, value D r c * t c = g r) := by
  have hset : setBlocks A B C D n (M.getD (setup A B C D n)) = some (fun r c => blockMatrix A B C D n r c) := by
    refine setBlocks_eq A B C D n m h _ fun r c => ?_
    cases M with
    | none => rw [Option.getD_none, setup_eq A B C D n m h]
    | some P => exact hM P rfl r c
  refine ⟨fun r c => blockMatrix A B C D n r c,
    fun i => solver (fun r c => (blockMatrix A B C D n r c).getD 0) (fun i => if i < n then f i else g (i - n)) i,
    fun i => solver (fun r c => (blockMatrix A B C D n r c).getD 0) (fun i => if i < n then f i else g (i - n)) (i + n),
    ?_, ?_, ?_, ?_⟩
  · unfold solve
    simp only [hset, Option.bind_eq_bind, Option.bind_some]
  · intro P hP
    cases hP
    exact fun r c => Iff.rfl
  · intro r hr
    have := hsol r (by omega)
    rw [Finset.sum_range_add] at this
    simp only [hr, if_true] at this
    rw [← this]
    congr 1
    · refine Finset.sum_congr rfl fun c hc => ?_
      have hc' := Finset.mem_range.1 hc
      simp [value, blockMatrix, hr, hc']
    · refine Finset.sum_congr rfl fun c hc => ?_
      simp [value, blockMatrix, hr, Nat.add_comm c n]
  · intro r hr
    have := hsol (n + r) (by omega)
    rw [Finset.sum_range_add] at this
    simp only [show ¬ n + r < n by omega, if_false, Nat.add_sub_cancel_left] at this
    rw [← this]
    congr 1
    · refine Finset.sum_congr rfl fun c hc => ?_
      have hc' := Finset.mem_range.1 hc
      simp [value, blockMatrix, hc']
    · refine Finset.sum_congr rfl fun c hc => ?_
      simp [value, blockMatrix, Nat.add_comm c n]

theorem stored_pattern (A A' : CRS K) (h : SamePattern A A') (i j : ℕ) : (stored A i j).isSome ↔ (stored A' i j).isSome := by
  have row : ∀ l : List (ℕ × K), (l.find? fun q => q.1 == j).isSome ↔ j ∈ l.map Prod.fst := by
    intro l
    simp only [List.find?_isSome, List.mem_map]
    constructor
    · rintro ⟨x, hx, hj⟩
      exact ⟨x, hx, by simpa using hj⟩
    · rintro ⟨x, hx, hj⟩
      exact ⟨x, hx, by simpa using hj⟩
  have hrow : ((A[i]?).getD []).map Prod.fst = ((A'[i]?).getD []).map Prod.fst := by
    have := congrArg (fun l : List (List ℕ) => (l[i]?).getD []) h
    simp only [List.getElem?_map] at this
    cases h1 : A[i]? <;> cases h2 : A'[i]? <;> simpa [h1, h2] using this
  unfold stored
  rw [Option.isSome_map, Option.isSome_map, row, row, hrow]

/-- **C79** The matrix stored by one call fits later calls with other values in the same pattern (as in Newton's method on
a fixed grid). -/
theorem C79_again (A B C D A' B' C' D' : CRS K) (n : ℕ) (M : Pattern K) (h : Fits (some M) A B C D n)
    (ha : SamePattern A A') (hb : SamePattern B B') (hc : SamePattern C C') (hd : SamePattern D D') :
    Fits (some M) A' B' C' D' n := by
  intro P hP r c
  rw [h P hP r c]
  unfold blockMatrix
  split <;> split
  · exact stored_pattern A A' ha _ _
  · exact stored_pattern B B' hb _ _
  · exact stored_pattern C C' hc _ _
  · exact stored_pattern D D' hd _ _

/-- Non-vacuity of C79: two dofs and one dof, and a system with the solution `(1, 2, 3)`. -/
example : Blocks ([[(0, 1)], [(1, 1)]] : CRS ℚ) [[(0, 1)], []] [[(1, 1)]] [[(0, 2)]] 2 1 ∧
    Fits none ([[(0, 1)], [(1, 1)]] : CRS ℚ) [[(0, 1)], []] [[(1, 1)]] [[(0, 2)]] 2 ∧
    Solves (fun _ _ i => ((i : ℚ) + 1)) (2 + 1) (fun r c => (blockMatrix ([[(0, 1)], [(1, 1)]] : CRS ℚ) [[(0, 1)], []] [[(1, 1)]]
      [[(0, 2)]] 2 r c).getD 0) (fun i => if i < 2 then (if i = 0 then 4 else 2) else 8) := by
  refine ⟨⟨by simp [Size], by simp [Size], by simp [Size], by simp [Size], by simp [Distinct], by simp [Distinct],
    by simp [Distinct], by simp [Distinct]⟩, fun P h => (Option.some_ne_none P h.symm).elim, fun r hr => ?_⟩
  have : r = 0 ∨ r = 1 ∨ r = 2 := by omega
  rcases this with rfl | rfl | rfl <;> simp [Finset.sum_range_succ, blockMatrix, stored] <;> norm_num

/-- **C133** is false if an entry is no longer stored by a block: the old value stays in the matrix. -/
theorem C133_stale_false : ∃ M : Pattern ℚ, setup [[(0, 1)]] [[(0, 5)]] [[(0, 0)]] [[(0, 1)]] 1 = M ∧
    ∃ M', setBlocks [[(0, 1)]] [[]] [[(0, 0)]] [[(0, 1)]] 1 M = some M' ∧ M' 0 1 = some 5 ∧
      blockMatrix ([[(0, 1)]] : CRS ℚ) [[]] [[(0, 0)]] [[(0, 1)]] 1 0 1 = none := by
  refine ⟨_, rfl, _, rfl, ?_, ?_⟩
  · rfl
  · rfl

end Verif.Jacobian
