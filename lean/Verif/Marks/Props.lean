import Verif.Marks.Model

/-!
# C23: the last mark counts; C56: what preAdapt tells
-/

namespace Verif.Marks

open Verif RefElem

/-- Specification. Reading the calls from the latest to the earliest: the first `mark` of the element met decides, a
`postAdapt` met before means 0, and so does the end of the list. -/
def lastMark (e : Nat) : List Op → Int
  | [] => 0
  | .mark r e' :: l => if e' = e then r else lastMark e l
  | .postAdapt :: _ => 0
  | _ :: l => lastMark e l

/-- Specification for interface elements. Elements are the same if they have the same vertices. -/
def lastIMark (e : List Nat) : List Op → Int
  | [] => 0
  | .imark r e' :: l => if e'.Perm e then r else lastIMark e l
  | .ipostAdapt :: _ => 0
  | _ :: l => lastIMark e l

/-- As `lastIMark`, with the calls `mark(0, e)` ignored. -/
def lastNonzeroIMark (e : List Nat) : List Op → Int
  | [] => 0
  | .imark r e' :: l => if e'.Perm e ∧ r ≠ 0 then r else lastNonzeroIMark e l
  | .ipostAdapt :: _ => 0
  | _ :: l => lastNonzeroIMark e l

theorem run_append (leaf : List Nat) (ops : List Op) (o : Op) : run leaf (ops ++ [o]) = step leaf (run leaf ops) o := by
  simp [run]

theorem foldl_mark (l : List Nat) (s : State) (e : Nat) :
    (l.foldl (fun (t : State) (e : Nat) => mark t 0 e) s).mark e = if e ∈ l then 0 else s.mark e := by
  induction l generalizing s with
  | nil => simp
  | cons a l ih =>
    rw [List.foldl_cons, ih]
    by_cases h : e ∈ l
    · simp [h]
    · by_cases h' : e = a
      · simp [mark, h']
      · simp [mark, h, h']

theorem foldl_imark (l : List Nat) (s : State) :
    (l.foldl (fun (t : State) (e : Nat) => mark t 0 e) s).imark = s.imark := by
  induction l generalizing s with
  | nil => rfl
  | cons a l ih => rw [List.foldl_cons, ih]; rfl

/-- C23, bulk grid: after any sequence of calls, `getMark` of a leaf element returns the value of its last `mark` since
the last `postAdapt`, whatever happened to other elements. -/
theorem C23_bulk (leaf : List Nat) (ops : List Op) (e : Nat) (he : e ∈ leaf) :
    getMark (run leaf ops) e = lastMark e ops.reverse := by
  induction ops using List.reverseRecOn with
  | nil => rfl
  | append_singleton ops o ih =>
    rw [run_append, List.reverse_append]
    unfold getMark at *
    cases o with
    | mark r e' =>
      simp only [step, mark, List.reverse_cons, List.reverse_nil, List.nil_append, List.cons_append, lastMark]
      by_cases h : e = e'
      · simp [h]
      · rw [if_neg h, if_neg (Ne.symm h), ih]
    | imark r e' =>
      simp only [step, imark, List.reverse_cons, List.reverse_nil, List.nil_append, List.cons_append, lastMark]
      rw [← ih]
      split <;> rfl
    | postAdapt =>
      simp only [step, postAdapt, List.reverse_cons, List.reverse_nil, List.nil_append, List.cons_append, lastMark]
      rw [foldl_mark, if_pos he]
    | ipostAdapt => exact ih
    | removeVertex v => exact ih

/-- Five calls on a grid with three elements: element 1 keeps the second mark, element 2 the one after `postAdapt`. -/
example : getMark (run [0, 1, 2] [.mark 1 0, .mark 1 1, .postAdapt, .mark (-1) 1, .mark 1 2]) 1 = -1 := by
  rw [C23_bulk _ _ _ (by decide)]; rfl
example : getMark (run [0, 1, 2] [.mark 1 0, .mark 1 1, .postAdapt, .mark (-1) 1, .mark 1 2]) 0 = 0 := by
  rw [C23_bulk _ _ _ (by decide)]; rfl

theorem sort_eq_iff {l m : List Nat} : sortIds l = sortIds m ↔ l.Perm m := by
  constructor
  · intro h
    exact (sortIds_perm l).symm.trans (h ▸ sortIds_perm m)
  · intro h
    exact ((sortIds_perm l).trans (h.trans (sortIds_perm m).symm)).eq_of_pairwise
      (fun _ _ _ _ h1 h2 => Nat.le_antisymm h1 h2) (sortIds_sorted l) (sortIds_sorted m)

/-- The exact answer of the interface grid: the last mark different from 0. -/
theorem C107_interface_exact (leaf : List Nat) (ops : List Op) (e : List Nat) :
    igetMark (run leaf ops) e = lastNonzeroIMark e ops.reverse := by
  induction ops using List.reverseRecOn with
  | nil => rfl
  | append_singleton ops o ih =>
    rw [run_append, List.reverse_append]
    unfold igetMark at *
    cases o with
    | mark r e' => exact ih
    | imark r e' =>
      simp only [step, imark, List.reverse_cons, List.reverse_nil, List.nil_append, List.cons_append, lastNonzeroIMark]
      by_cases hr : r = 0
      · simp only [hr, ne_eq, not_true_eq_false, and_false, if_false]
        exact ih
      · simp only [ne_eq, hr, not_false_eq_true, and_true, if_true, Map.find_set]
        by_cases h : e'.Perm e
        · rw [if_pos (sort_eq_iff.2 h.symm), if_pos h]
        · rw [if_neg (fun hh => h (sort_eq_iff.1 hh).symm), if_neg h]
          exact ih
    | postAdapt =>
      simp only [step, postAdapt, List.reverse_cons, List.reverse_nil, List.nil_append, List.cons_append, lastNonzeroIMark]
      rw [foldl_imark]
      exact ih
    | ipostAdapt => rfl
    | removeVertex v => exact ih

theorem last_nonzero (e : List Nat) (ops : List Op) (h : ∀ r e', Op.imark r e' ∈ ops → r ≠ 0) :
    lastNonzeroIMark e ops = lastIMark e ops := by
  induction ops with
  | nil => rfl
  | cons o ops ih =>
    have ih := ih (fun r e' hm => h r e' (List.mem_cons_of_mem _ hm))
    cases o with
    | imark r e' =>
      have hr : r ≠ 0 := h r e' List.mem_cons_self
      simp only [lastNonzeroIMark, lastIMark, hr, ne_eq, not_false_eq_true, and_true, ih]
    | mark => exact ih
    | postAdapt => exact ih
    | ipostAdapt => rfl
    | removeVertex => exact ih

/-- C107, interface grid: the last mark counts as long as no call passes the value 0. Missing: the value 0, for which the
claim is false (`C107_interface_zero_false`). -/
theorem C107_interface_partial (leaf : List Nat) (ops : List Op) (e : List Nat)
    (h : ∀ r e', Op.imark r e' ∈ ops → r ≠ 0) : igetMark (run leaf ops) e = lastIMark e ops.reverse := by
  rw [C107_interface_exact, last_nonzero]
  intro r e' hm
  exact h r e' (List.mem_reverse.1 hm)

/-- Two interface elements, one of them marked through both of its vertex orders. -/
example : igetMark (run [0] [.imark 1 [3, 5], .imark (-1) [5, 8], .imark (-1) [5, 3], .postAdapt]) [3, 5] = -1 := by
  rw [C107_interface_partial _ _ _ (by simp only [List.mem_cons, Op.imark.injEq]; rintro r e' (⟨rfl, -⟩ | ⟨rfl, -⟩ | ⟨rfl, -⟩ | h | h) <;> simp_all)]; decide

/-- C107 is false for the interface grid: marking with 0 does not take a mark back. -/
theorem C107_interface_zero_false :
    ¬ ∀ (leaf : List Nat) (ops : List Op) (e : List Nat), igetMark (run leaf ops) e = lastIMark e ops.reverse := by
  intro h
  have := h [0, 1] [.imark 1 [3, 5], .imark 0 [3, 5]] [3, 5]
  rw [C107_interface_exact] at this
  revert this
  decide

/-! ## markElements -/

/-- After `markElements` every bulk element carries the value of the indicator, and the call reports whether some value
differs from 0. Bulk part. -/
theorem markElements_bulk (leaf : List Nat) (ind : Nat → Int) (t : State × Bool) :
    let a := leaf.foldl (fun (t : State × Bool) (e : Nat) => (mark t.1 (ind e) e, t.2 || ind e != 0)) t
    (∀ e, a.1.mark e = if e ∈ leaf then ind e else t.1.mark e) ∧ a.1.imark = t.1.imark ∧
      (a.2 = true ↔ t.2 = true ∨ ∃ e ∈ leaf, ind e ≠ 0) := by
  induction leaf generalizing t with
  | nil => simp
  | cons b l ih =>
    obtain ⟨h1, h2, h3⟩ := ih (mark t.1 (ind b) b, t.2 || ind b != 0)
    refine ⟨?_, ?_, ?_⟩
    · intro e
      rw [List.foldl_cons, h1]
      by_cases h : e ∈ l
      · simp [h]
      · by_cases h' : e = b
        · simp [mark, h']
        · simp [mark, h, h']
    · rw [List.foldl_cons, h2]; rfl
    · rw [List.foldl_cons, h3]
      simp [or_assoc]

theorem markElements_interface (ileaf : List (List Nat)) (iind : List Nat → Int)
    (hiind : ∀ e ∈ ileaf, ∀ e' ∈ ileaf, e.Perm e' → iind e = iind e') (t : State × Bool) :
    let a := ileaf.foldl (fun (t : State × Bool) (e : List Nat) => (imark t.1 (iind e) e, t.2 || iind e != 0)) t
    (∀ e ∈ ileaf, iind e ≠ 0 → igetMark a.1 e = iind e) ∧
      (∀ e, (∀ e' ∈ ileaf, e'.Perm e → iind e' = 0) → igetMark a.1 e = igetMark t.1 e) ∧ a.1.mark = t.1.mark ∧
      (a.2 = true ↔ t.2 = true ∨ ∃ e ∈ ileaf, iind e ≠ 0) := by
  induction ileaf using List.reverseRecOn with
  | nil => simp
  | append_singleton l b ih =>
    obtain ⟨h1, h2, h3, h4⟩ := ih (fun e he e' he' => hiind e (List.mem_append_left _ he) e' (List.mem_append_left _ he'))
    simp only [List.foldl_append, List.foldl_cons, List.foldl_nil] at h1 h2 h3 h4 ⊢
    generalize l.foldl (fun (t : State × Bool) (e : List Nat) => (imark t.1 (iind e) e, t.2 || iind e != 0)) t = a at *
    have hget : ∀ e, igetMark (imark a.1 (iind b) b) e = if b.Perm e ∧ iind b ≠ 0 then iind b else igetMark a.1 e := by
      intro e
      unfold imark igetMark
      by_cases hb : iind b = 0
      · simp [hb]
      · simp only [ne_eq, hb, not_false_eq_true, if_true, Map.find_set, and_true]
        by_cases hp : b.Perm e
        · rw [if_pos (sort_eq_iff.2 hp.symm), if_pos hp]
        · rw [if_neg (fun hh => hp (sort_eq_iff.1 hh).symm), if_neg hp]
    refine ⟨?_, ?_, ?_, ?_⟩
    · intro e he hne
      rw [hget]
      by_cases hp : b.Perm e
      · have := hiind b (by simp) e he hp
        rw [if_pos ⟨hp, this ▸ hne⟩, this]
      · rw [if_neg (fun hh => hp hh.1)]
        rcases List.mem_append.1 he with he | he
        · exact h1 e he hne
        · simp only [List.mem_singleton] at he
          exact absurd (he ▸ List.Perm.refl _) hp
    · intro e he
      rw [hget, if_neg, h2]
      · exact fun e' he' => he e' (List.mem_append_left _ he')
      · exact fun hh => hh.2 (he b (by simp) hh.1)
    · rw [← h3]
      unfold imark
      split <;> rfl
    · rw [Bool.or_eq_true, h4]
      simp only [List.mem_append, List.mem_singleton, bne_iff_ne, ne_eq, or_and_right, exists_or, exists_eq_left, or_assoc]

/-- C23 for `markElements`: on a grid without interface marks, every element then carries the value of the indicator, and
the call returns true exactly if some value is not 0. -/
theorem C23_markElements (s : State) (leaf : List Nat) (ileaf : List (List Nat)) (ind : Nat → Int)
    (iind : List Nat → Int) (hiind : ∀ e ∈ ileaf, ∀ e' ∈ ileaf, e.Perm e' → iind e = iind e') (hs : s.imark = []) :
    let a := markElements s leaf ileaf ind iind
    (∀ e ∈ leaf, getMark a.1 e = ind e) ∧ (∀ e ∈ ileaf, igetMark a.1 e = iind e) ∧
      (a.2 = true ↔ (∃ e ∈ leaf, ind e ≠ 0) ∨ ∃ e ∈ ileaf, iind e ≠ 0) := by
  obtain ⟨a1, a2, a3⟩ := markElements_bulk leaf ind (s, false)
  obtain ⟨b1, b2, b3, b4⟩ := markElements_interface ileaf iind hiind
    (leaf.foldl (fun (t : State × Bool) (e : Nat) => (mark t.1 (ind e) e, t.2 || ind e != 0)) (s, false))
  refine ⟨?_, ?_, ?_⟩
  · intro e he
    have := a1 e
    rw [if_pos he, ← b3] at this
    exact this
  · intro e he
    by_cases h : iind e = 0
    · have := b2 e (fun e' he' hp => by rw [hiind e' he' e he hp, h])
      unfold markElements
      rw [h, this]
      unfold igetMark
      rw [a2, hs]
      rfl
    · exact b1 e he h
  · have := b4.trans (or_congr a3 Iff.rfl)
    simp only [Bool.false_eq_true, false_or] at this
    exact this

/-- An indicator that asks for refinement of one element and coarsening of one interface element. -/
def exMarked : State × Bool := markElements init [0, 1] [[3, 5], [5, 8]] (fun e => if e = 1 then 1 else 0)
  (fun e => if 3 ∈ e then -1 else 0)

example : getMark exMarked.1 1 = 1 ∧ igetMark exMarked.1 [5, 3] = -1 ∧ igetMark exMarked.1 [5, 8] = 0 ∧
    exMarked.2 = true := by decide

/-! ## C56: preAdapt -/

/-- What a user reads off the grid: some bulk element is marked for coarsening. -/
def coarsenRequested (leaf : List Nat) (s : State) : Prop := ∃ e ∈ leaf, getMark s e < 0

theorem coarsen_counted (leaf : List Nat) (ops : List Op) (h : (run leaf ops).coarsenMarked = 0) (e : Nat)
    (he : e ∈ leaf) : 0 ≤ getMark (run leaf ops) e := by
  induction ops using List.reverseRecOn with
  | nil => simp [run, init, getMark]
  | append_singleton ops o ih =>
    rw [run_append] at *
    unfold getMark at *
    cases o with
    | mark r e' =>
      simp only [step, mark] at *
      by_cases hr : r < 0
      · simp [hr] at h
      · simp only [hr, if_false] at h
        split
        · omega
        · exact ih h
    | imark r e' =>
      simp only [step, imark] at *
      split at h <;> split <;> exact ih h
    | postAdapt =>
      simp only [step, postAdapt]
      rw [foldl_mark, if_pos he]
    | ipostAdapt => exact ih h
    | removeVertex v => exact ih h

/-- C56: if `preAdapt` returns false, no bulk element is marked for coarsening, no vertex is queued for removal since the
last `postAdapt`, and no interface element carries a mark. -/
theorem C56_false_means_nothing_vanishes (leaf : List Nat) (ops : List Op) (h : preAdapt (run leaf ops) = false) :
    ¬ coarsenRequested leaf (run leaf ops) ∧ (run leaf ops).remove = [] ∧ ∀ e, igetMark (run leaf ops) e = 0 := by
  simp only [preAdapt, ipreAdapt, Bool.or_eq_false_iff, decide_eq_false_iff_not, not_lt, Nat.le_zero_eq] at h
  obtain ⟨⟨h1, h2⟩, h3⟩ := h
  refine ⟨?_, List.eq_nil_of_length_eq_zero h3, ?_⟩
  · rintro ⟨e, he, hneg⟩
    have := coarsen_counted leaf ops h2 e he
    omega
  · intro e
    rw [igetMark, List.eq_nil_of_length_eq_zero h1]
    rfl

/-- Refinement marks alone leave the answer false. -/
example : preAdapt (run [0, 1] [.mark 1 0, .mark (-1) 1, .postAdapt, .mark 1 1]) = false := by decide

/-- Specification: after the last call of `stop` there is a call with the property `p`. -/
def Since (stop : Op) (p : Op → Prop) (ops : List Op) : Prop :=
  ∃ before o after, ops = before ++ o :: after ∧ p o ∧ ∀ o' ∈ after, o' ≠ stop

theorem since_append (stop : Op) (p : Op → Prop) (ops : List Op) (o : Op) :
    Since stop p (ops ++ [o]) ↔ p o ∨ (o ≠ stop ∧ Since stop p ops) := by
  constructor
  · rintro ⟨b, x, a, h, hx, ha⟩
    rcases List.eq_nil_or_concat a with rfl | ⟨a', y, rfl⟩
    · have h' : ops ++ [o] = b ++ [x] := h
      have := List.append_inj' h' rfl
      left
      have h2 : o = x := by simpa using this.2
      rw [h2]
      exact hx
    · right
      have h' : ops ++ [o] = (b ++ x :: a') ++ [y] := by simpa using h
      have := List.append_inj' h' rfl
      have h2 : o = y := by simpa using this.2
      refine ⟨?_, b, x, a', this.1, hx, fun o' ho' => ha o' (by simp [ho'])⟩
      rw [h2]
      exact ha y (by simp)
  · rintro (h | ⟨hne, b, x, a, rfl, hx, ha⟩)
    · exact ⟨ops, o, [], rfl, h, by simp⟩
    · refine ⟨b, x, a ++ [o], by simp, hx, ?_⟩
      intro o' ho'
      rcases List.mem_append.mp ho' with h | h
      · exact ha o' h
      · have : o' = o := by simpa using h
        rw [this]
        exact hne

theorem since_nil (stop : Op) (p : Op → Prop) : ¬ Since stop p [] := by
  rintro ⟨b, x, a, h, -⟩
  simp at h

theorem imark_since (leaf : List Nat) (ops : List Op) :
    0 < (run leaf ops).imark.length ↔ Since .ipostAdapt (fun o => ∃ r e, o = .imark r e ∧ r ≠ 0) ops := by
  induction ops using List.reverseRecOn with
  | nil => simp [run, init, since_nil]
  | append_singleton ops o ih =>
    rw [run_append, since_append, ← ih]
    cases o with
    | mark r e => simp [step, mark]
    | imark r e =>
      by_cases hr : r = 0
      · simp [step, imark, hr]
      · simp [step, imark, hr, Map.set]
    | postAdapt => simp [step, postAdapt, foldl_imark]
    | ipostAdapt => simp [step, ipostAdapt]
    | removeVertex v => simp [step, removeVertex]

theorem coarsen_since (leaf : List Nat) (ops : List Op) :
    0 < (run leaf ops).coarsenMarked ↔ Since .postAdapt (fun o => ∃ r e, o = .mark r e ∧ r < 0) ops := by
  induction ops using List.reverseRecOn with
  | nil => simp [run, init, since_nil]
  | append_singleton ops o ih =>
    rw [run_append, since_append, ← ih]
    cases o with
    | mark r e =>
      by_cases hr : r < 0
      · simp [step, mark, hr]
      · simp [step, mark, hr]
    | imark r e =>
      by_cases hr : r = 0
      · simp [step, imark, hr]
      · simp [step, imark, hr]
    | postAdapt => simp [step, postAdapt]
    | ipostAdapt => simp [step, ipostAdapt]
    | removeVertex v => simp [step, removeVertex]

theorem remove_since (leaf : List Nat) (ops : List Op) :
    0 < (run leaf ops).remove.length ↔ Since .postAdapt (fun o => ∃ v, o = .removeVertex v) ops := by
  induction ops using List.reverseRecOn with
  | nil => simp [run, init, since_nil]
  | append_singleton ops o ih =>
    rw [run_append, since_append, ← ih]
    cases o with
    | mark r e => simp [step, mark]
    | imark r e =>
      by_cases hr : r = 0
      · simp [step, imark, hr]
      · simp [step, imark, hr]
    | postAdapt => simp [step, postAdapt]
    | ipostAdapt => simp [step, ipostAdapt]
    | removeVertex v => simp [step, removeVertex]

/-- C56, exactly: `preAdapt` is true if and only if an interface element has been marked (with a mark other than 0) since the last `postAdapt` of the interface
grid, or an element has been marked for coarsening or a vertex has been given to `removeVertex` since the last `postAdapt`. -/
theorem C56_exactly (leaf : List Nat) (ops : List Op) :
    preAdapt (run leaf ops) = true ↔
      Since .ipostAdapt (fun o => ∃ r e, o = .imark r e ∧ r ≠ 0) ops ∨
      Since .postAdapt (fun o => ∃ r e, o = .mark r e ∧ r < 0) ops ∨
      Since .postAdapt (fun o => ∃ v, o = .removeVertex v) ops := by
  rw [← imark_since leaf, ← coarsen_since leaf, ← remove_since leaf]
  simp [preAdapt, ipreAdapt, or_assoc]

/-- A removal is seen until `postAdapt`, whatever is marked in between. -/
example : preAdapt (run [0, 1] [.removeVertex 4, .mark 1 0, .ipostAdapt]) = true ∧
    preAdapt (run [0, 1] [.removeVertex 4, .mark 1 0, .postAdapt]) = false := by decide

/-- C56, after the cycle: once both grids have seen `postAdapt`, `preAdapt` returns false until the next call. -/
theorem C56_after_postAdapt (leaf : List Nat) (ops : List Op) :
    preAdapt (run leaf (ops ++ [.postAdapt, .ipostAdapt])) = false := by
  simp [run, step, postAdapt, ipostAdapt, preAdapt, ipreAdapt]

/-- The documented answer ("false, if at least one entity is marked") is not what is returned: with nothing marked the
answer is false as well, and a mark taken back still makes it true. -/
theorem C56_documented_false :
    (¬ ∀ (leaf : List Nat) (ops : List Op),
      preAdapt (run leaf ops) = false ↔ ∃ e ∈ leaf, getMark (run leaf ops) e ≠ 0) ∧
    ¬ ∀ (leaf : List Nat) (ops : List Op), preAdapt (run leaf ops) = true → ∃ e ∈ leaf, getMark (run leaf ops) e ≠ 0 := by
  constructor
  · intro h
    exact absurd (h [0] []) (by decide)
  · intro h
    exact absurd (h [0] [.mark (-1) 0, .mark 0 0]) (by decide)

end Verif.Marks
