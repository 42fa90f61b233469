import Verif.IntersectionIter.Model
import Verif.Parallel.Props
import Verif.RefElem.Props
import Mathlib.Tactic.IntervalCases
import Mathlib.Data.Fin.VecNotation

/-!
# C228: loops over the intersections of an element
-/

namespace Verif.IntersectionIter

variable {dim : Nat} {part : Nat → Int} {nb : Nat → Nat → Option Nat} {c : Nat}

/-! ## Specification -/

/-- The slots that a loop over all intersections of the element `c` visits. -/
def Visits (dim : Nat) (part : Nat → Int) (nb : Nat → Nat → Option Nat) (c : Nat) (l : List Nat) : Prop := ∃ i, begin dim part nb c = some i ∧ Walk dim part nb c i l

/-- The neighbours of the elements of the grid: if `d` is a neighbour of `c`, they have a facet in common and `c` is a neighbour of `d`. -/
structure Neighbours (m : Parallel.Mesh) (dim : Nat) (nb : Nat → Nat → Option Nat) : Prop where
  facet : ∀ c s d, s ≤ dim → nb c s = some d → m.Adj c d
  back : ∀ c s d, s ≤ dim → nb c s = some d → ∃ t ≤ dim, nb d t = some c

/-! ## One element -/

theorem proceed_end : proceed dim part nb c (dim + 1) = false := by simp [proceed]

theorem proceed_iff {i : Nat} (h : i ≤ dim) : proceed dim part nb c i = false ↔ part c ≠ 2 ∨ ∃ d, nb c (dim - i) = some d ∧ part d = 0 := by
  unfold proceed
  rw [if_neg (by omega)]
  by_cases hp : part c = 2
  · rw [if_pos hp]
    cases hn : nb c (dim - i) with
    | none => simp [hp]
    | some d => simp [hp]
  · simp [hp]

theorem advance_spec : ∀ (n i : Nat), dim + 1 - i = n + 1 → ∃ j, advance dim part nb c (n + 1) i = some j ∧ i < j ∧ j ≤ dim + 1 ∧ proceed dim part nb c j = false ∧
    ∀ k, i < k → k < j → proceed dim part nb c k = true := by
  intro n
  induction n with
  | zero =>
    intro i hn
    have : i = dim := by omega
    subst this
    refine ⟨i + 1, ?_, by omega, by omega, proceed_end, fun k h1 h2 => by omega⟩
    simp [advance, proceed_end]
  | succ n ih =>
    intro i hn
    rw [advance]
    by_cases hp : proceed dim part nb c (i + 1) = true
    · obtain ⟨j, h1, h2, h3, h4, h5⟩ := ih (i + 1) (by omega)
      refine ⟨j, by rw [if_pos hp, h1], by omega, h3, h4, fun k hk1 hk2 => ?_⟩
      by_cases hk : k = i + 1
      · rw [hk, hp]
      · exact h5 k (by omega) hk2
    · rw [if_neg hp]
      exact ⟨i + 1, rfl, by omega, by omega, by simpa using hp, fun k h1 h2 => by omega⟩

theorem increment_spec {i : Nat} (hi : i ≤ dim) : ∃ j, increment dim part nb c i = some j ∧ i < j ∧ j ≤ dim + 1 ∧ proceed dim part nb c j = false ∧
    ∀ k, i < k → k < j → proceed dim part nb c k = true := by
  unfold increment
  rw [show dim + 1 - i = dim - i + 1 by omega]
  exact advance_spec (dim - i) i (by omega)

theorem walk_exists (n : Nat) : ∀ i, i ≤ dim + 1 → dim + 1 - i = n → proceed dim part nb c i = false →
    ∃ l, Walk dim part nb c i l ∧ l.Pairwise (· > ·) ∧ ∀ s, s ∈ l ↔ ∃ k, i ≤ k ∧ k ≤ dim ∧ s = dim - k ∧ proceed dim part nb c k = false := by
  induction n using Nat.strong_induction_on with
  | _ n ih =>
    intro i hi hn hp
    by_cases he : i = dim + 1
    · subst he
      exact ⟨[], .done, List.Pairwise.nil, fun s => ⟨fun h => by simp at h, fun ⟨k, h1, h2, _⟩ => by omega⟩⟩
    · obtain ⟨j, h1, h2, h3, h4, h5⟩ := increment_spec (part := part) (nb := nb) (c := c) (show i ≤ dim by omega)
      obtain ⟨l, hl1, hl2, hl3⟩ := ih (dim + 1 - j) (by omega) j h3 rfl h4
      refine ⟨(dim - i) :: l, .step he h1 hl1, List.pairwise_cons.2 ⟨fun s hs => ?_, hl2⟩, fun s => ?_⟩
      · obtain ⟨k, k1, k2, rfl, -⟩ := (hl3 s).1 hs
        omega
      · rw [List.mem_cons, hl3]
        constructor
        · rintro (rfl | ⟨k, k1, k2, k3, k4⟩)
          · exact ⟨i, by omega, by omega, rfl, hp⟩
          · exact ⟨k, by omega, k2, k3, k4⟩
        · rintro ⟨k, k1, k2, k3, k4⟩
          by_cases hk : k = i
          · left
            rw [k3, hk]
          · right
            refine ⟨k, ?_, k2, k3, k4⟩
            by_contra hkj
            rw [h5 k (by omega) (by omega)] at k4
            cases k4

theorem walk_unique {i : Nat} {l l' : List Nat} (h : Walk dim part nb c i l) : Walk dim part nb c i l' → l = l' := by
  induction h generalizing l' with
  | done =>
    intro h'
    cases h' with
    | done => rfl
    | step h => exact absurd rfl h
  | step hi hj _ ih =>
    intro h'
    cases h' with
    | done => exact absurd rfl hi
    | step _ hj' hw =>
      rw [hj] at hj'
      cases hj'
      rw [ih hw]

theorem begin_spec : ∃ i, begin dim part nb c = some i ∧ i ≤ dim + 1 ∧ proceed dim part nb c i = false ∧ ∀ k < i, proceed dim part nb c k = true := by
  by_cases hp : proceed dim part nb c 0 = true
  · obtain ⟨j, h1, h2, h3, h4, h5⟩ := increment_spec (part := part) (nb := nb) (c := c) (show 0 ≤ dim by omega)
    refine ⟨j, ?_, h3, h4, fun k hk => ?_⟩
    · unfold begin settle settle
      rw [if_pos hp, h1]
      simp [h4]
    · by_cases hk0 : k = 0
      · rw [hk0, hp]
      · exact h5 k (by omega) hk
  · refine ⟨0, ?_, by omega, by simpa using hp, fun k hk => by omega⟩
    unfold begin settle
    rw [if_neg hp]

/-- **C228** A loop over the intersections of an element ends. It visits every facet at most once, in descending order of the slots. For an element that is not a ghost these are all facets, for a ghost the
ones to interior elements. -/
theorem C228_iterate (dim : Nat) (part : Nat → Int) (nb : Nat → Nat → Option Nat) (c : Nat) : ∃ l, Visits dim part nb c l ∧ (∀ l', Visits dim part nb c l' → l' = l) ∧ l.Pairwise (· > ·) ∧
    ∀ s, s ∈ l ↔ s ≤ dim ∧ (part c ≠ 2 ∨ ∃ d, nb c s = some d ∧ part d = 0) := by
  obtain ⟨i, h1, h2, h3, h4⟩ := begin_spec (dim := dim) (part := part) (nb := nb) (c := c)
  obtain ⟨l, l1, l2, l3⟩ := walk_exists (part := part) (nb := nb) (c := c) _ i h2 rfl h3
  refine ⟨l, ⟨i, h1, l1⟩, ?_, l2, fun s => ?_⟩
  · rintro l' ⟨i', h1', hw⟩
    rw [h1] at h1'
    cases h1'
    exact walk_unique hw l1
  · rw [l3]
    constructor
    · rintro ⟨k, -, k2, rfl, k4⟩
      exact ⟨by omega, (proceed_iff k2).1 k4⟩
    · rintro ⟨hs, h⟩
      have hp : proceed dim part nb c (dim - s) = false := by
        rw [proceed_iff (by omega), show dim - (dim - s) = s by omega]
        exact h
      refine ⟨dim - s, ?_, by omega, by omega, hp⟩
      by_contra hlt
      rw [h4 _ (by omega)] at hp
      cases hp

theorem mem_visits {l : List Nat} (h : Visits dim part nb c l) (s : Nat) : s ∈ l ↔ s ≤ dim ∧ (part c ≠ 2 ∨ ∃ d, nb c s = some d ∧ part d = 0) := by
  obtain ⟨l', -, h2, -, h4⟩ := C228_iterate dim part nb c
  rw [h2 l h]
  exact h4 s

/-- `indexInInside()` of the intersection in a slot. -/
def indexInInside {d : Nat} (ids : Fin (d + 1) → ℕ) (s : Nat) : ℕ :=
  if h : s < d + 1 then RefElem.cgalFacetToDuneFacet d (RefElem.computeCGALIndices ids) ⟨s, h⟩ else 0

/-- **C228** For an element that is not a ghost, `indexInInside()` takes each of the values 0, ..., dim once. -/
theorem C228_numbers {d : Nat} (hd : d = 2 ∨ d = 3) (ids : Fin (d + 1) → ℕ) {l : List Nat} (hc : part c ≠ 2) (h : Visits d part nb c l) : (l.map (indexInInside ids)).Perm (List.range (d + 1)) := by
  obtain ⟨l', -, h2, h3, h4⟩ := C228_iterate d part nb c
  have hl := h2 l h
  subst hl
  have key : ∀ s (hs : s < d + 1), indexInInside ids s = (Fin.rev ((RefElem.computeCGALIndices ids).symm ⟨s, hs⟩)).val := by
    intro s hs
    unfold indexInInside
    rw [dif_pos hs, RefElem.dune_eq hd]
  have hnd : (l.map (indexInInside ids)).Nodup := by
    refine List.Nodup.map_on ?_ (h3.imp fun h => Nat.ne_of_gt h)
    intro x hx y hy hxy
    have hx' : x < d + 1 := Nat.lt_succ_of_le ((h4 x).1 hx).1
    have hy' : y < d + 1 := Nat.lt_succ_of_le ((h4 y).1 hy).1
    rw [key x hx', key y hy'] at hxy
    have := (RefElem.computeCGALIndices ids).symm.injective (Fin.rev_injective (Fin.ext hxy))
    exact congrArg Fin.val this
  refine (List.perm_ext_iff_of_nodup hnd List.nodup_range).2 fun k => ?_
  rw [List.mem_map, List.mem_range]
  constructor
  · rintro ⟨s, hs, rfl⟩
    rw [key s (Nat.lt_succ_of_le ((h4 s).1 hs).1)]
    exact Fin.isLt _
  · intro hk
    refine ⟨(RefElem.computeCGALIndices ids (Fin.rev ⟨k, hk⟩)).val, (h4 _).2 ⟨Nat.le_of_lt_succ (Fin.isLt _), Or.inl hc⟩, ?_⟩
    rw [key _ (Fin.isLt _)]
    simp

/-- A tetrahedron whose vertices are not in the order of their ids: the facets are not visited in the order of their numbers, but each of them once. -/
example : Visits 3 (fun _ => 0) (fun _ _ => none) 7 [3, 2, 1, 0] ∧ ([3, 2, 1, 0].map (indexInInside (d := 3) ![20, 5, 11, 8])).Perm [0, 1, 2, 3] := by
  have h : Visits 3 (fun _ => 0) (fun _ _ => none) 7 [3, 2, 1, 0] := by
    exact ⟨0, rfl, .step (i := 0) (j := 1) (by decide) rfl (.step (i := 1) (j := 2) (by decide) rfl (.step (i := 2) (j := 3) (by decide) rfl (.step (i := 3) (j := 4) (by decide) rfl .done)))⟩
  exact ⟨h, C228_numbers (Or.inr rfl) _ (by decide) h⟩

/-! ## The grid of a process -/

/-- **C228** On the process `me`, a facet of an element of its grid is visited exactly if one of its sides has the rank of the process; a facet at the boundary if the element has. -/
theorem C228_visible {m : Parallel.Mesh} (hw : m.WF) {me c : Nat} {l : List Nat} (hc : (Parallel.compute m me).part c ≠ -1) (h : Visits dim (Parallel.compute m me).part nb c l) {s : Nat} (hs : s ≤ dim) :
    s ∈ l ↔ m.rank c = me ∨ ∃ d, nb c s = some d ∧ m.rank d = me := by
  rw [mem_visits h]
  simp only [Parallel.C35_interior hw, hs, true_and]
  by_cases hr : m.rank c = me
  · have := (Parallel.C35_interior hw me c).2 hr
    simp [hr, this]
  · rcases Parallel.compute_other hw hr with h2 | h2
    · simp [hr, h2]
    · exact absurd h2 hc

/-- **C228** The element outside of a visited intersection belongs to the grid of the process. -/
theorem C228_outside {m : Parallel.Mesh} (hw : m.WF) (hn : Neighbours m dim nb) {me c : Nat} {l : List Nat} (hc : (Parallel.compute m me).part c ≠ -1)
    (h : Visits dim (Parallel.compute m me).part nb c l) {s : Nat} (hs : s ∈ l) {d : Nat} (hd : nb c s = some d) : (Parallel.compute m me).part d ≠ -1 := by
  have hsd := ((mem_visits h s).1 hs).1
  by_cases hrd : m.rank d = me
  · rw [(Parallel.C35_interior hw me d).2 hrd]
    decide
  · have hrc : m.rank c = me := by
      rcases (C228_visible hw hc h hsd).1 hs with h1 | ⟨d', h1, h2⟩
      · exact h1
      · rw [hd] at h1
        cases h1
        exact absurd h2 hrd
    rw [(Parallel.C35_ghost hw me d).2 ⟨hrd, Or.inl ⟨c, Or.symm (hn.facet c s d hsd hd), hrc⟩⟩]
    decide

/-- **C228** An intersection that is visited from one side is visited from the other side, too. -/
theorem C228_symmetric {m : Parallel.Mesh} (hw : m.WF) (hn : Neighbours m dim nb) {me c : Nat} {l : List Nat} (hc : (Parallel.compute m me).part c ≠ -1)
    (h : Visits dim (Parallel.compute m me).part nb c l) {s : Nat} (hs : s ∈ l) {d : Nat} (hd : nb c s = some d) :
    ∃ l' t, Visits dim (Parallel.compute m me).part nb d l' ∧ t ∈ l' ∧ nb d t = some c := by
  have hsd := ((mem_visits h s).1 hs).1
  obtain ⟨t, ht, htc⟩ := hn.back c s d hsd hd
  obtain ⟨l', h', -⟩ := C228_iterate dim (Parallel.compute m me).part nb d
  refine ⟨l', t, h', ?_, htc⟩
  rw [C228_visible hw (C228_outside hw hn hc h hs hd) h' ht]
  rcases (C228_visible hw hc h hsd).1 hs with h1 | ⟨d', h1, h2⟩
  · exact Or.inr ⟨c, htc, h1⟩
  · rw [hd] at h1
    cases h1
    exact Or.inl h2

/-- Four triangles in a row, two on each process. -/
def rowNb (c s : Nat) : Option Nat := if s = 0 ∧ c < 3 then some (c + 1) else if s = 1 ∧ 0 < c ∧ c ≤ 3 then some (c - 1) else none

theorem row_neighbours : Neighbours Parallel.bend 2 rowNb := by
  have key : ∀ c s d, rowNb c s = some d → (s = 0 ∧ c < 3 ∧ d = c + 1) ∨ (s = 1 ∧ 0 < c ∧ c ≤ 3 ∧ d = c - 1) := by
    intro c s d h
    unfold rowNb at h
    split_ifs at h with h1 h2 <;> simp at h <;> omega
  constructor
  · intro c s d _ h
    rcases key c s d h with ⟨_, h1, rfl⟩ | ⟨_, h1, h2, rfl⟩
    · left
      interval_cases c <;> decide
    · right
      interval_cases c <;> decide
  · intro c s d _ h
    rcases key c s d h with ⟨_, h1, rfl⟩ | ⟨_, h1, h2, rfl⟩
    · exact ⟨1, by decide, by simp [rowNb]; omega⟩
    · exact ⟨0, by decide, by simp [rowNb]; omega⟩

/-- The ghost 2 on process 0 shows the facet to element 1, and not those to element 3 and at the boundary. The ghost 3, which is there because of the interface, has no intersections at all. -/
example : (Parallel.compute Parallel.bend 0).part 2 = 2 ∧ (Parallel.compute Parallel.bend 0).part 3 = 2 ∧ Visits 2 (Parallel.compute Parallel.bend 0).part rowNb 2 [1] ∧
    Visits 2 (Parallel.compute Parallel.bend 0).part rowNb 3 [] := by
  have p1 : (Parallel.compute Parallel.bend 0).part 1 = 0 := by decide
  have p2 : (Parallel.compute Parallel.bend 0).part 2 = 2 := by decide
  have p3 : (Parallel.compute Parallel.bend 0).part 3 = 2 := by decide
  refine ⟨p2, p3, ?_, ?_⟩
  · refine ⟨1, ?_, .step (j := 3) (by decide) ?_ .done⟩ <;> simp [begin, settle, increment, advance, proceed, rowNb, p1, p2, p3]
  · refine ⟨3, ?_, .done⟩
    simp [begin, settle, increment, advance, proceed, rowNb, p2, p3]

end Verif.IntersectionIter
