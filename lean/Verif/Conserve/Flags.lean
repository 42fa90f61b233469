import Verif.Conserve.Examples

/-!
# C210, C211: which elements are new and which might vanish

After `adapt()` and before `postAdapt()` the elements that were not there before, and only these, are new; all elements that are gone were flagged
by `adapt()`. Before `adapt()`, however, no element is flagged.
-/

namespace Verif.Conserve

open Refine MeasureTheory

/-! ## Specification -/

/-- There is an element with these vertices. -/
def Present (M : TMesh) (c : Fin 3 → ℕ) : Prop := ∃ d ∈ M.cells, Finset.univ.image d = Finset.univ.image c

/-- The user asked for something at this element: to split one of its edges, to insert a point in it, or to remove one of its vertices. -/
def Asked (x : Exec) (k : ℕ) (o : Fin 3 → ℕ) : Prop :=
  (∃ r ∈ x.rs, ∃ a b, r.edge = some (a, b) ∧ a ∈ Finset.univ.image o ∧ b ∈ Finset.univ.image o) ∨
    (∃ (i : ℕ), ∃ r, x.rs[i]? = some r ∧ r.edge = none ∧ x.zones[i]? = some [k] ∧ r.point ∈ convexHull ℝ (Set.range fun i => x.before.pos (o i))) ∨
    ∃ v ∈ x.vs, v ∈ Finset.univ.image o

/-! ## Proofs -/

theorem sweep_vanish (zones : List (List ℕ)) : ∀ (s : Components.State) (c : ℕ),
    (Components.sweep s zones).1.vanish c = true ↔ s.vanish c = true ∨ ∃ z ∈ zones, c ∈ z := by
  induction zones with
  | nil => intro s c; simp [Components.sweep]
  | cons z zs ih =>
    intro s c
    rw [Components.sweep]
    simp only [ih, Components.markZone, List.mem_cons, exists_eq_or_imp]
    by_cases h : c ∈ z <;> simp [h]

theorem marking_vanish {zones : List (List ℕ)} {s s' : Components.State} {ids : List ℕ} (h : Components.Marking zones s s' ids) (c : ℕ) :
    s'.vanish c = true ↔ s.vanish c = true ∨ ∃ z ∈ zones, c ∈ z := by
  induction h with
  | done _ => exact sweep_vanish _ _ _
  | again _ _ ih =>
    rw [ih, sweep_vanish]
    tauto

/-! ## C210 -/

/-- **C210** An element of the mesh after `adapt()` is new exactly if the mesh before did not contain it. -/
theorem C210_isNew {x : Exec} (hr : x.Runs) (hs : x.Sound) {c : Fin 3 → ℕ} (hc : c ∈ x.after.cells) :
    isNew x.new x.news c = true ↔ ¬ Present x.before c := by
  constructor
  · rintro h ⟨o, ho, he⟩
    exact new_ne_old hr hs h ho he.symm
  · intro h
    rw [isNew_iff]
    rcases (invariant hr hs).1.flags c hc with h1 | h1
    · exact absurd ⟨c, h1, rfl⟩ h
    · exact h1

/-- **C210** `mightVanish()` holds after the marking exactly for the elements at which something was asked for. -/
theorem C210_flag {x : Exec} (hr : x.Runs) (hs : x.Sound) {k : ℕ} {o : Fin 3 → ℕ} (hk : x.before.cells[k]? = some o) :
    x.s'.vanish k = true ↔ Asked x k o := by
  have hklt := (List.getElem?_eq_some_iff.1 hk).1
  rw [marking_vanish hr.marking]
  have h0 : (Components.start x.s 0).vanish k = false := (hs.clean.leaf k ((hs.leaf k).2 hklt)).2
  rw [h0]
  simp only [Bool.false_eq_true, false_or]
  constructor
  · rintro ⟨z, hz, hkz⟩
    obtain ⟨j, hj⟩ := List.mem_iff_getElem?.1 hz
    have hjl := (List.getElem?_eq_some_iff.1 hj).1
    rw [hr.count] at hjl
    by_cases hlt : j < x.rs.length
    · have hr' := List.getElem?_eq_getElem hlt
      obtain ⟨z', hz', hzone⟩ := hr.insertZones j _ hr'
      obtain rfl : z' = z := by rw [hz'] at hj; exact Option.some.inj hj
      cases he : x.rs[j].edge with
      | none =>
        simp only [ZoneOf, he] at hzone
        obtain ⟨k', c', rfl, hk', hx⟩ := hzone
        obtain rfl : k = k' := by simpa using hkz
        obtain rfl : c' = o := by rw [hk'] at hk; exact Option.some.inj hk
        exact Or.inr (Or.inl ⟨j, _, hr', he, hz', hx⟩)
      | some e =>
        obtain ⟨a, b⟩ := e
        simp only [ZoneOf, he] at hzone
        obtain ⟨h1, h2⟩ := (hzone.1 k o hk).1 hkz
        exact Or.inl ⟨_, List.getElem_mem hlt, a, b, he, mem_verts.2 h1, mem_verts.2 h2⟩
    · have hi : j - x.rs.length < x.vs.length := by omega
      obtain ⟨z', hz', hzone⟩ := hr.removeZones _ _ (List.getElem?_eq_getElem hi)
      rw [show x.rs.length + (j - x.rs.length) = j by omega] at hz'
      obtain rfl : z' = z := by rw [hz'] at hj; exact Option.some.inj hj
      exact Or.inr (Or.inr ⟨_, List.getElem_mem hi, mem_verts.2 ((hzone.1 k o hk).1 hkz)⟩)
  · rintro (⟨r, hrm, a, b, he, h1, h2⟩ | ⟨i, r, hi, he, hz, hx⟩ | ⟨v, hv, h1⟩)
    · obtain ⟨i, hi⟩ := List.mem_iff_getElem?.1 hrm
      obtain ⟨z, hz, hzone⟩ := hr.insertZones i r hi
      simp only [ZoneOf, he] at hzone
      exact ⟨z, List.mem_of_getElem? hz, (hzone.1 k o hk).2 ⟨mem_verts.1 h1, mem_verts.1 h2⟩⟩
    · exact ⟨[k], List.mem_of_getElem? hz, by simp⟩
    · obtain ⟨i, hi⟩ := List.mem_iff_getElem?.1 hv
      obtain ⟨z, hz, hzone⟩ := hr.removeZones i v hi
      exact ⟨z, List.mem_of_getElem? hz, (hzone.1 k o hk).2 (mem_verts.1 h1)⟩

/-- **C210** Every element that is gone after `adapt()` was flagged with `mightVanish()` by the marking. -/
theorem C210_gone {x : Exec} (hr : x.Runs) (hs : x.Sound) {k : ℕ} {o : Fin 3 → ℕ} (hk : x.before.cells[k]? = some o) (hgone : ¬ Present x.after o) :
    x.s'.vanish k = true := by
  have ho := List.mem_of_getElem? hk
  obtain ⟨hI, -⟩ := invariant hr hs
  -- some element afterwards overlaps with it
  have hsum := sum_shared (M := x.after) (M' := x.before) hI.conf hI.ccw hI.distinct (hull_sub' hr hs ho)
  have hpos := area_pos (hs.ccw o ho)
  obtain ⟨c, hc, hne⟩ : ∃ c ∈ x.after.cells, shared x.after c x.before o ≠ 0 := by
    by_contra h
    push Not at h
    rw [← hsum, List.sum_eq_zero (by
      intro y hy
      obtain ⟨c, hc, rfl⟩ := List.mem_map.1 hy
      exact h c hc)] at hpos
    exact lt_irrefl _ hpos
  have hleb : volume (Refine.hull ℝ x.before o ∩ Refine.hull ℝ x.after c) ≠ 0 := by
    intro h
    rw [Set.inter_comm] at h
    exact hne (congrArg ENNReal.toReal h)
  rw [marking_vanish hr.marking]
  rcases hI.good c hc with hold | ⟨κ, hg⟩
  · rw [hull_old hI.pos hold] at hleb
    exact absurd ⟨c, hc, (overlap_eq hs.conforming hs.ccw ho hold subset_rfl hleb).symm⟩ hgone
  · obtain ⟨j, z, h1, h2, -⟩ := hg.overlap k o hk hleb
    exact Or.inr ⟨z, List.mem_of_getElem? h1, h2⟩

/-- **C210** Together: an element at which nothing was asked for stays, and is not new. -/
theorem C210_stays {x : Exec} (hr : x.Runs) (hs : x.Sound) {k : ℕ} {o : Fin 3 → ℕ} (hk : x.before.cells[k]? = some o) (h : ¬ Asked x k o) :
    ∃ c ∈ x.after.cells, Finset.univ.image c = Finset.univ.image o ∧ isNew x.new x.news c = false := by
  by_cases hp : Present x.after o
  · obtain ⟨c, hc, he⟩ := hp
    refine ⟨c, hc, he, Bool.eq_false_iff.2 fun hn => ?_⟩
    exact (C210_isNew hr hs hc).1 hn ⟨o, List.mem_of_getElem? hk, he.symm⟩
  · exact absurd ((C210_flag hr hs hk).1 (C210_gone hr hs hk hp)) h

theorem gone_example {x : Exec} (h3 : x.before = exBefore) (h4 : x.after = exAfter) :
    x.before.cells[0]? = some ![3, 1, 2] ∧ ¬ Present x.after ![3, 1, 2] := by
  refine ⟨by rw [h3, cells_before]; rfl, ?_⟩
  rintro ⟨d, hd, he⟩
  rw [h4, cells_after] at hd
  simp only [List.mem_cons, List.not_mem_nil, or_false] at hd
  rcases hd with rfl | rfl
  · exact absurd he (by decide)
  · exact absurd he (by decide)

/-- In the example all elements afterwards are new, and the elements before were flagged. -/
example : ∃ x : Exec, x.Runs ∧ x.Sound ∧ isNew x.new x.news ![4, 1, 2] = true ∧ x.s'.vanish 0 = true := by
  obtain ⟨x, h1, h2, h3, h4, -⟩ := exists_exec
  obtain ⟨g1, g2⟩ := gone_example h3 h4
  refine ⟨x, h1, h2, ?_, C210_gone h1 h2 g1 g2⟩
  refine (C210_isNew h1 h2 (by rw [h4, cells_after]; simp)).2 ?_
  rintro ⟨o, ho, he⟩
  rw [h3, cells_before] at ho
  simp only [List.mem_cons, List.not_mem_nil, or_false] at ho
  rcases ho with rfl | rfl | rfl <;> exact absurd he (by decide)

/-! ## C211 -/

/-- What a caller sees of the flags of the elements before `adapt()`: `mark`, `refineEdge`, `insertVertexInCell`, `removeVertex` and `preAdapt` (mmesh.hh:700-830) do
not write to them, so they are the flags from before. -/
def flagsBefore (x : Exec) : ℕ → Bool := x.s.vanish

/-- **C211** (refuted) "An element for which `mightVanish()` is false before `adapt()` is still there afterwards": no element is flagged at that time, but elements do
vanish. -/
theorem C211_before_false : ¬ ∀ x : Exec, x.Runs → x.Sound → ∀ (k : ℕ) o, x.before.cells[k]? = some o → flagsBefore x k = false → Present x.after o := by
  intro h
  obtain ⟨x, h1, h2, h3, h4, -⟩ := exists_exec
  obtain ⟨g1, g2⟩ := gone_example h3 h4
  refine g2 (h x h1 h2 0 _ g1 ?_)
  exact (h2.clean.leaf 0 ((h2.leaf 0).2 (List.getElem?_eq_some_iff.1 g1).1)).2

/-! ## C212 -/

/-- `isLeaf()` (grid/entity.hh:679, interface/entity.hh:641). -/
def isLeaf (leaf isNew : Bool) : Bool := leaf && !isNew

/-- `isLeaf()` of the elements that the iterators of the leaf grid view give: these have been constructed from cells of the host, with `isLeaf_ = true`
(grid/entity.hh:439-445), in contrast to elements of connected components (447-456). -/
def leafOf (x : Exec) (c : Fin 3 → ℕ) : Bool := isLeaf true (isNew x.new x.news c)

/-- **C212** Between `adapt()` and `postAdapt()` the elements of the leaf grid view for which `isLeaf()` is true are exactly those that were there before. -/
theorem C212_isLeaf {x : Exec} (hr : x.Runs) (hs : x.Sound) {c : Fin 3 → ℕ} (hc : c ∈ x.after.cells) : leafOf x c = true ↔ Present x.before c := by
  have := C210_isNew hr hs hc
  unfold leafOf isLeaf
  cases h : isNew x.new x.news c
  · rw [h] at this
    simp at this
    simpa using this
  · rw [h] at this
    simpa using this

/-- **C212** (refuted) "Every element of the leaf grid view is a leaf": in this execution not a single one is. -/
theorem C212_view_false : ∃ x : Exec, x.Runs ∧ x.Sound ∧ x.after.cells ≠ [] ∧ ∀ c ∈ x.after.cells, leafOf x c = false := by
  obtain ⟨x, h1, h2, h3, h4, -⟩ := exists_exec
  refine ⟨x, h1, h2, by rw [h4, cells_after]; simp, fun c hc => ?_⟩
  rw [Bool.eq_false_iff, Ne, C212_isLeaf h1 h2 hc]
  rintro ⟨o, ho, he⟩
  rw [h4, cells_after] at hc
  rw [h3, cells_before] at ho
  simp only [List.mem_cons, List.not_mem_nil, or_false] at ho hc
  rcases ho with rfl | rfl | rfl <;> rcases hc with rfl | rfl <;> exact absurd he (by decide)

end Verif.Conserve
