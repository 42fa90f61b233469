import Verif.MoveMesh.Model
import Mathlib.Tactic.NormNum

/-!
# C53: moveMesh
-/

namespace Verif.MoveMesh

/-! ## Counting -/

/-- Number of calls of `ensureInterfaceMovement`. -/
def ensures (h : List Event) : ℕ := h.countP fun | .ensure _ _ => true | _ => false
/-- Number of calls of `markElements`. -/
def marks (h : List Event) : ℕ := h.countP fun | .mark _ => true | _ => false
/-- Number of adaptations of the bulk functions. -/
def bulkAdapts (h : List Event) : ℕ := h.countP fun | .adapt => true | _ => false
/-- Number of adaptations of the interface functions. -/
def interfaceAdapts (h : List Event) : ℕ := h.countP fun | .iadapt => true | _ => false
/-- Number of movements of the interface. -/
def moves (h : List Event) : ℕ := h.countP fun | .move _ => true | _ => false

theorem count_adapts (a : Args) (h : List Event) :
    ensures (adapts a h) = ensures h ∧ marks (adapts a h) = marks h ∧ moves (adapts a h) = moves h ∧
    bulkAdapts (adapts a h) = bulkAdapts h + (if a.grid then 1 else 0) ∧
    interfaceAdapts (adapts a h) = interfaceAdapts h + (if a.igrid then 1 else 0) := by
  unfold adapts ensures marks moves bulkAdapts interfaceAdapts
  cases a.grid <;> cases a.igrid <;> simp

/-- The state after the loop: the latest event is the check of twice the shifts that are used, and the event before it in
the history of `getShifts` calls is the one that returned these shifts. -/
theorem ensureLoop_spec (E : Env) (a : Args) : ∀ (k : ℕ) (h : List Event) (s : Shifts), k ≤ 10 →
    (∃ h', h = .getShifts s :: h') → ∀ r, ensureLoop E a k h s = r →
    10 - k ≤ r.2.1 ∧ r.2.1 ≤ 10 ∧
    ensures r.1 + (10 - k) = ensures h + r.2.1 + 1 ∧ marks r.1 = marks h ∧ moves r.1 = moves h ∧
    bulkAdapts r.1 + (10 - k) * (if a.grid then 1 else 0) = bulkAdapts h + r.2.1 * (if a.grid then 1 else 0) ∧
    interfaceAdapts r.1 + (10 - k) * (if a.igrid then 1 else 0)
      = interfaceAdapts h + r.2.1 * (if a.igrid then 1 else 0) ∧
    ∃ b h', r.1 = .ensure (twice r.2.2) b :: .getShifts r.2.2 :: h' ∧ (r.2.1 < 10 → b = false)
  | 0, h, s, _, ⟨h', hh⟩, r, hr => by
    subst hr
    subst hh
    simp only [ensureLoop]
    refine ⟨by omega, by omega, by simp [ensures], by simp [marks], by simp [moves], by simp [bulkAdapts],
      by simp [interfaceAdapts], _, h', rfl, by omega⟩
  | k + 1, h, s, hk, ⟨h', hh⟩, r, hr => by
    rw [ensureLoop] at hr
    simp only at hr
    cases hb : E.ensure h (twice s) with
    | false =>
      rw [hb] at hr
      simp only [Bool.false_eq_true, if_false] at hr
      subst hr
      subst hh
      simp only
      refine ⟨by omega, by omega, by simp [ensures]; omega, by simp [marks], by simp [moves], by simp [bulkAdapts],
        by simp [interfaceAdapts], false, h', rfl, by simp⟩
    | true =>
      rw [hb] at hr
      simp only [if_true] at hr
      obtain ⟨h1, h2, h3, h4, h5, h6, h7, h8⟩ := ensureLoop_spec E a k _ _ (by omega) ⟨_, rfl⟩ r hr
      obtain ⟨c1, c2, c3, c4, c5⟩ := count_adapts a (.ensure (twice s) true :: h)
      have hsub : 10 - k = 10 - (k + 1) + 1 := by omega
      refine ⟨by omega, h2, ?_, ?_, ?_, ?_, ?_, h8⟩
      · have e1 : ∀ x l, ensures (.getShifts x :: l) = ensures l := fun x l => by simp [ensures]
        have e2 : ensures (.ensure (twice s) true :: h) = ensures h + 1 := by simp [ensures]
        rw [e1, c1, e2] at h3; omega
      · have e1 : ∀ x l, marks (.getShifts x :: l) = marks l := fun x l => by simp [marks]
        have e2 : marks (.ensure (twice s) true :: h) = marks h := by simp [marks]
        rw [e1, c2, e2] at h4; exact h4
      · have e1 : ∀ x l, moves (.getShifts x :: l) = moves l := fun x l => by simp [moves]
        have e2 : moves (.ensure (twice s) true :: h) = moves h := by simp [moves]
        rw [e1, c3, e2] at h5; exact h5
      · have e1 : ∀ x l, bulkAdapts (.getShifts x :: l) = bulkAdapts l := fun x l => by simp [bulkAdapts]
        have e2 : bulkAdapts (.ensure (twice s) true :: h) = bulkAdapts h := by simp [bulkAdapts]
        rw [e1, c4, e2, hsub] at h6
        split_ifs at h6 ⊢ <;> omega
      · have e1 : ∀ x l, interfaceAdapts (.getShifts x :: l) = interfaceAdapts l := fun x l => by simp [interfaceAdapts]
        have e2 : interfaceAdapts (.ensure (twice s) true :: h) = interfaceAdapts h := by simp [interfaceAdapts]
        rw [e1, c5, e2, hsub] at h7
        split_ifs at h7 ⊢ <;> omega

theorem markLoop_spec (E : Env) (a : Args) : ∀ (k : ℕ) (h : List Event), k ≤ 10 → ∀ r, markLoop E a k h = r →
    10 - k ≤ r.2 ∧ r.2 ≤ 10 ∧ marks r.1 + (10 - k) = marks h + r.2 + 1 ∧ ensures r.1 = ensures h ∧
    moves r.1 = moves h ∧
    bulkAdapts r.1 + (10 - k) * (if a.grid then 1 else 0) = bulkAdapts h + r.2 * (if a.grid then 1 else 0) ∧
    interfaceAdapts r.1 + (10 - k) * (if a.igrid then 1 else 0)
      = interfaceAdapts h + r.2 * (if a.igrid then 1 else 0) ∧
    (∃ b h', r.1 = .mark b :: h' ∧ (r.2 < 10 → b = false)) ∧
    ∃ l, r.1 = l ++ h ∧ ∀ e ∈ l, (∃ b, e = .mark b) ∨ e = .adapt ∨ e = .iadapt
  | 0, h, _, r, hr => by
    subst hr
    simp only [markLoop]
    refine ⟨by omega, by omega, by simp [marks], by simp [ensures], by simp [moves], by simp [bulkAdapts],
      by simp [interfaceAdapts], ⟨_, h, rfl, by omega⟩, [_], rfl, by simp⟩
  | k + 1, h, hk, r, hr => by
    rw [markLoop] at hr
    cases hb : E.mark h with
    | false =>
      rw [hb] at hr
      simp only [Bool.false_eq_true, if_false] at hr
      subst hr
      simp only
      refine ⟨by omega, by omega, by simp [marks]; omega, by simp [ensures], by simp [moves], by simp [bulkAdapts],
        by simp [interfaceAdapts], ⟨false, h, rfl, by simp⟩, [_], rfl, by simp⟩
    | true =>
      rw [hb] at hr
      simp only [if_true] at hr
      obtain ⟨h1, h2, h3, h4, h5, h6, h7, h8, l, hl1, hl2⟩ := markLoop_spec E a k _ (by omega) r hr
      obtain ⟨c1, c2, c3, c4, c5⟩ := count_adapts a (.mark true :: h)
      have hsub : 10 - k = 10 - (k + 1) + 1 := by omega
      refine ⟨by omega, h2, ?_, ?_, ?_, ?_, ?_, h8, ?_⟩
      · have e2 : marks (.mark true :: h) = marks h + 1 := by simp [marks]
        rw [c2, e2] at h3; omega
      · have e2 : ensures (.mark true :: h) = ensures h := by simp [ensures]
        rw [c1, e2] at h4; exact h4
      · have e2 : moves (.mark true :: h) = moves h := by simp [moves]
        rw [c3, e2] at h5; exact h5
      · have e2 : bulkAdapts (.mark true :: h) = bulkAdapts h := by simp [bulkAdapts]
        rw [c4, e2, hsub] at h6
        split_ifs at h6 ⊢ <;> omega
      · have e2 : interfaceAdapts (.mark true :: h) = interfaceAdapts h := by simp [interfaceAdapts]
        rw [c5, e2, hsub] at h7
        split_ifs at h7 ⊢ <;> omega
      · unfold adapts at hl1
        simp only at hl1
        cases hg : a.grid <;> cases hi : a.igrid <;> rw [hg, hi] at hl1 <;>
          simp only [if_true, if_false, Bool.false_eq_true] at hl1
        · exact ⟨l ++ [.mark true], by rw [hl1]; simp, by
            intro e he; simp only [List.mem_append, List.mem_cons, List.not_mem_nil, or_false] at he
            rcases he with he | rfl
            · exact hl2 e he
            · exact Or.inl ⟨true, rfl⟩⟩
        · exact ⟨l ++ [.iadapt, .mark true], by rw [hl1]; simp, by
            intro e he; simp only [List.mem_append, List.mem_cons, List.not_mem_nil, or_false] at he
            rcases he with he | rfl | rfl
            · exact hl2 e he
            · simp
            · exact Or.inl ⟨true, rfl⟩⟩
        · exact ⟨l ++ [.adapt, .mark true], by rw [hl1]; simp, by
            intro e he; simp only [List.mem_append, List.mem_cons, List.not_mem_nil, or_false] at he
            rcases he with he | rfl | rfl
            · exact hl2 e he
            · simp
            · exact Or.inl ⟨true, rfl⟩⟩
        · exact ⟨l ++ [.iadapt, .adapt, .mark true], by rw [hl1]; simp, by
            intro e he; simp only [List.mem_append, List.mem_cons, List.not_mem_nil, or_false] at he
            rcases he with he | rfl | rfl | rfl
            · exact hl2 e he
            · simp
            · simp
            · exact Or.inl ⟨true, rfl⟩⟩

/-! ## C53 -/

/-- Bounds and adaptations: at most ten ensure steps and ten mark steps are reported; `ensureInterfaceMovement` and
`markElements` are called once more than that; the given functions are adapted once for each reported step. -/
theorem C53_bounds (E : Env) (a : Args) (h : List Event) (ensure mark : ℕ) (hr : moveMesh E a = (h, ensure, mark)) :
    ensure ≤ 10 ∧ mark ≤ 10 ∧
    ensures h = (if a.move then ensure + 1 else 0) ∧ marks h = mark + 1 ∧
    bulkAdapts h = (if a.grid then ensure + mark else 0) ∧
    interfaceAdapts h = (if a.igrid then ensure + mark else 0) ∧
    moves h = (if a.move then 1 else 0) := by
  unfold moveMesh at hr
  cases hm : a.move with
  | false =>
    rw [hm] at hr
    simp only [Bool.false_eq_true, if_false, Prod.mk.injEq] at hr
    obtain ⟨hr1, hr2, hr3⟩ := hr
    obtain ⟨h1, h2, h3, h4, h5, h6, h7, _, _⟩ := markLoop_spec E a 10 [] (le_refl _) _ rfl
    rw [hr1] at h3 h4 h5 h6 h7
    rw [hr3] at h1 h2 h3 h6 h7
    subst hr2
    simp only [ensures, marks, moves, bulkAdapts, interfaceAdapts, List.countP_nil, Nat.sub_self, zero_mul,
      add_zero, zero_add] at *
    refine ⟨by omega, h2, by simpa using h4, h3, ?_, ?_, by simpa using h5⟩
    · rw [h6]; split_ifs <;> omega
    · rw [h7]; split_ifs <;> omega
  | true =>
    rw [hm] at hr
    simp only [if_true, Prod.mk.injEq] at hr
    obtain ⟨hr1, hr2, hr3⟩ := hr
    obtain ⟨g1, g2, g3, g4, g5, g6, g7, _, _⟩ :=
      ensureLoop_spec E a 10 [.getShifts (E.shifts [])] (E.shifts []) (le_refl _) ⟨_, rfl⟩ _ rfl
    obtain ⟨h1, h2, h3, h4, h5, h6, h7, _, _⟩ := markLoop_spec E a 10
      (.move (ensureLoop E a 10 [.getShifts (E.shifts [])] (E.shifts [])).2.2 ::
        (ensureLoop E a 10 [.getShifts (E.shifts [])] (E.shifts [])).1) (le_refl _) _ rfl
    rw [hr1] at h3 h4 h5 h6 h7
    rw [hr3] at h1 h2 h3 h6 h7
    rw [hr2] at g1 g2 g3 g6 g7
    have k1 : ∀ s l, ensures (.move s :: l) = ensures l := fun s l => by simp [ensures]
    have k2 : ∀ s l, marks (.move s :: l) = marks l := fun s l => by simp [marks]
    have k3 : ∀ s l, moves (.move s :: l) = moves l + 1 := fun s l => by simp [moves]
    have k4 : ∀ s l, bulkAdapts (.move s :: l) = bulkAdapts l := fun s l => by simp [bulkAdapts]
    have k5 : ∀ s l, interfaceAdapts (.move s :: l) = interfaceAdapts l := fun s l => by simp [interfaceAdapts]
    have z1 : ∀ s, ensures [.getShifts s] = 0 := fun s => by simp [ensures]
    have z2 : ∀ s, marks [.getShifts s] = 0 := fun s => by simp [marks]
    have z3 : ∀ s, moves [.getShifts s] = 0 := fun s => by simp [moves]
    have z4 : ∀ s, bulkAdapts [.getShifts s] = 0 := fun s => by simp [bulkAdapts]
    have z5 : ∀ s, interfaceAdapts [.getShifts s] = 0 := fun s => by simp [interfaceAdapts]
    rw [k1] at h4
    rw [k2] at h3
    rw [k3] at h5
    rw [k4] at h6
    rw [k5] at h7
    rw [z1] at g3
    rw [z2] at g4
    rw [z3] at g5
    rw [z4] at g6
    rw [z5] at g7
    simp only [Nat.sub_self, zero_mul, add_zero, zero_add, if_true] at *
    refine ⟨g2, h2, by omega, by omega, ?_, ?_, by omega⟩
    · rw [h6, g6]; split_ifs <;> omega
    · rw [h7, g7]; split_ifs <;> omega

/-- The interface is moved with the shifts that `getShifts` returned last, directly after twice these shifts were passed
to `ensureInterfaceMovement`; if fewer than ten ensure steps are reported this check returned `False`.  After ten steps: see
`C122_unchecked_false`. -/
theorem C53_checked (E : Env) (a : Args) (ha : a.move = true) (h : List Event) (ensure mark : ℕ)
    (hr : moveMesh E a = (h, ensure, mark)) :
    ∃ l s b h', h = l ++ .move s :: .ensure (twice s) b :: .getShifts s :: h' ∧ (ensure < 10 → b = false) ∧
      ∀ e ∈ l, (∃ b, e = .mark b) ∨ e = .adapt ∨ e = .iadapt := by
  unfold moveMesh at hr
  rw [ha] at hr
  simp only [if_true, Prod.mk.injEq] at hr
  obtain ⟨hr1, hr2, hr3⟩ := hr
  obtain ⟨_, _, _, _, _, _, _, b, h', g1, g2⟩ :=
    ensureLoop_spec E a 10 [.getShifts (E.shifts [])] (E.shifts []) (le_refl _) ⟨_, rfl⟩ _ rfl
  obtain ⟨_, _, _, _, _, _, _, _, l, hl1, hl2⟩ := markLoop_spec E a 10
    (.move (ensureLoop E a 10 [.getShifts (E.shifts [])] (E.shifts [])).2.2 ::
      (ensureLoop E a 10 [.getShifts (E.shifts [])] (E.shifts [])).1) (le_refl _) _ rfl
  rw [hr1] at hl1
  rw [hr2] at g2
  exact ⟨l, _, b, h', by rw [hl1, ← g1], g2, hl2⟩

/-- If fewer than ten mark steps are reported, no element is left marked: the last call of `markElements` returned
`False` and nothing happened after it. -/
theorem C53_marked (E : Env) (a : Args) (h : List Event) (ensure mark : ℕ)
    (hr : moveMesh E a = (h, ensure, mark)) (hm : mark < 10) : ∃ h', h = .mark false :: h' := by
  unfold moveMesh at hr
  split_ifs at hr
  · simp only [Prod.mk.injEq] at hr
    obtain ⟨hr1, _, hr3⟩ := hr
    obtain ⟨_, _, _, _, _, _, _, ⟨b, h', e, hb⟩, _⟩ := markLoop_spec E a 10
      (.move (ensureLoop E a 10 [.getShifts (E.shifts [])] (E.shifts [])).2.2 ::
        (ensureLoop E a 10 [.getShifts (E.shifts [])] (E.shifts [])).1) (le_refl _) _ rfl
    rw [hr3] at hb
    rw [hr1, hb hm] at e
    exact ⟨h', e⟩
  · simp only [Prod.mk.injEq] at hr
    obtain ⟨hr1, _, hr3⟩ := hr
    obtain ⟨_, _, _, _, _, _, _, ⟨b, h', e, hb⟩, _⟩ := markLoop_spec E a 10 [] (le_refl _) _ rfl
    rw [hr3] at hb
    rw [hr1, hb hm] at e
    exact ⟨h', e⟩

/-- A grid that needs two adaptations before the interface can be moved and one afterwards. -/
def sampleEnv : Env :=
  ⟨fun _ => .array [(1, 0)], fun h _ => decide (ensures h < 2), fun h => decide (marks h < 1)⟩

example : (moveMesh sampleEnv ⟨true, true, true⟩).2 = (2, 1) ∧
    (moveMesh sampleEnv ⟨true, true, true⟩).1.length = 15 := by decide +kernel

/-- A grid that never accepts the movement: after ten adaptations the interface is moved although the check of these
shifts has just returned `True`. -/
theorem C122_unchecked_false : ∃ (E : Env) (h : List Event) (ensure mark : ℕ),
    moveMesh E ⟨true, true, true⟩ = (h, ensure, mark) ∧
    ∃ l s h', h = l ++ .move s :: .ensure (twice s) true :: h' := by
  refine ⟨⟨fun _ => .array [(1, 0)], fun _ _ => true, fun _ => false⟩, _, _, _, rfl, ?_⟩
  exact ⟨[.mark false], .array [(1, 0)], _, rfl⟩

/-- Without functions nothing is adapted: the loops run although no adaptation is made between the checks. -/
theorem C122_adapted_false : ∃ (E : Env) (h : List Event) (ensure mark : ℕ),
    moveMesh E ⟨false, false, true⟩ = (h, ensure, mark) ∧ ensure = 10 ∧ mark = 10 ∧ bulkAdapts h = 0 ∧
    interfaceAdapts h = 0 := by
  refine ⟨⟨fun _ => .array [(1, 0)], fun _ _ => true, fun _ => true⟩, _, _, _, rfl, ?_, ?_, ?_, ?_⟩ <;> decide +kernel

/-- If `getShifts` returns arrays, the check is made for twice the movement of every vertex. -/
theorem C53_twice (l : List (ℚ × ℚ)) : (twice (.array l)).vectors.length = l.length ∧
    ∀ (i : ℕ) (p : ℚ × ℚ), l[i]? = some p → (twice (.array l)).vectors[i]? = some (p.1 + p.1, p.2 + p.2) := by
  refine ⟨by simp [twice, Shifts.vectors], fun i p hp => ?_⟩
  simp only [twice, Shifts.vectors, List.getElem?_map, hp, Option.map_some, two_mul]

/-- If `getShifts` returns a list, as its description asks for, the list is repeated instead: the check is made for the
movement itself and for twice as many vertices. -/
theorem C122_list_false (l : List (ℚ × ℚ)) : (twice (.list l)).vectors = l ++ l := rfl

end Verif.MoveMesh
