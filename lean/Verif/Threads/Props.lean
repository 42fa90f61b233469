import Verif.Threads.Model
import Mathlib.Tactic.FinCases

/-!
# C49: concurrent interface queries
-/

namespace Verif.Threads

/-! ## Specification -/

/-- The facet is an interface segment: all of its vertices are interface vertices and some segment has the same vertex
ids, in whatever order. -/
def IsSegment (segs : List (List ℕ)) (f : List Vtx) : Prop :=
  (∀ v ∈ f, v.flag = true) ∧ ∃ q ∈ segs, q.Perm (f.map Vtx.id)

/-- The keys of the segment map are sorted (they are sorted before every insertion, C30). -/
def Sorted (segs : List (List ℕ)) : Prop := ∀ q ∈ segs, q.Pairwise (· ≤ ·)

/-! ## One call on its own -/

theorem sorted_unique {q l : List ℕ} (hq : q.Pairwise (· ≤ ·)) : l.insertionSort (· ≤ ·) = q ↔ q.Perm l := by
  constructor
  · rintro rfl; exact List.perm_insertionSort (· ≤ ·) l
  · intro h
    exact ((List.perm_insertionSort (· ≤ ·) l).trans h.symm).eq_of_pairwise
      (fun _ _ _ _ => Nat.le_antisymm) (List.pairwise_insertionSort (· ≤ ·) l) hq

theorem mem_segs {segs : List (List ℕ)} (hs : Sorted segs) (l : List ℕ) :
    l.insertionSort (· ≤ ·) ∈ segs ↔ ∃ q ∈ segs, q.Perm l := by
  constructor
  · intro h; exact ⟨_, h, List.perm_insertionSort (· ≤ ·) l⟩
  · rintro ⟨q, hq, hp⟩
    rw [(sorted_unique (hs q hq)).2 hp]; exact hq

/-- Steps of one call with nothing in between. -/
def alone (segs : List (List ℕ)) : ℕ → List ℕ × Thread → List ℕ × Thread
  | 0, c => c
  | k + 1, c => alone segs k ((stepThread segs c.1 c.2).1, ⟨c.2.verts, (stepThread segs c.1 c.2).2⟩)

theorem alone_done (segs : List (List ℕ)) (f : List Vtx) (b : Bool) : ∀ (k : ℕ) (ids : List ℕ),
    alone segs k (ids, ⟨f, .done b⟩) = (ids, ⟨f, .done b⟩)
  | 0, _ => rfl
  | k + 1, ids => by rw [alone]; exact alone_done segs f b k ids

theorem alone_verts (segs : List (List ℕ)) : ∀ (k : ℕ) (c : List ℕ × Thread), (alone segs k c).2.verts = c.2.verts
  | 0, _ => rfl
  | k + 1, c => by rw [alone, alone_verts segs k]

theorem stepThread_length (segs : List (List ℕ)) (ids : List ℕ) (t : Thread) :
    (stepThread segs ids t).1.length = ids.length := by
  unfold stepThread
  split
  · split
    · rfl
    · split <;> simp
  · simp
  · rfl
  · rfl

theorem alone_length (segs : List (List ℕ)) : ∀ (k : ℕ) (c : List ℕ × Thread),
    (alone segs k c).1.length = c.1.length
  | 0, _ => rfl
  | k + 1, c => by rw [alone, alone_length segs k]; exact stepThread_length ..

/-- The loop from position `i` on, with enough steps for loop, sort and count. -/
theorem alone_loop (segs : List (List ℕ)) (f : List Vtx) : ∀ (m i : ℕ) (ids : List ℕ) (k : ℕ), i + m = f.length →
    m + 3 ≤ k → ids.length = f.length → ids.take i = (f.map Vtx.id).take i →
    ∃ ids' b, alone segs k (ids, ⟨f, .loop i⟩) = (ids', ⟨f, .done b⟩) ∧
      (b = true ↔ (∀ v ∈ f.drop i, v.flag = true) ∧ (f.map Vtx.id).insertionSort (· ≤ ·) ∈ segs)
  | 0, i, ids, k, hi, hk, hl, ht => by
    obtain ⟨k, rfl⟩ : ∃ j, k = j + 1 + 1 + 1 := ⟨k - 3, by omega⟩
    have hids : ids = f.map Vtx.id := by
      rw [List.take_of_length_le (by omega), List.take_of_length_le (by simp; omega)] at ht
      exact ht
    have hn : f[i]? = none := by rw [List.getElem?_eq_none_iff]; omega
    have hd : f.drop i = [] := List.drop_of_length_le (by omega)
    rw [alone]
    simp only [stepThread, hn]
    rw [alone]
    simp only [stepThread]
    rw [alone]
    simp only [stepThread]
    rw [alone_done]
    refine ⟨_, _, rfl, ?_⟩
    rw [hd, hids]; simp
  | m + 1, i, ids, k, hi, hk, hl, ht => by
    obtain ⟨k, rfl⟩ : ∃ j, k = j + 1 := ⟨k - 1, by omega⟩
    have hlt : i < f.length := by omega
    have hs : f[i]? = some f[i] := List.getElem?_eq_getElem hlt
    rw [alone]
    simp only [stepThread, hs]
    by_cases hf : f[i].flag = true
    · rw [if_pos hf]
      obtain ⟨ids', b, h, hb⟩ := alone_loop segs f m (i + 1) (ids.set i f[i].id) k (by omega) (by omega)
        (by rw [List.length_set]; exact hl) (by
          have hli : i < ids.length := by omega
          apply List.ext_getElem?
          intro j
          rw [List.getElem?_take, List.getElem?_take]
          by_cases hj : j < i + 1
          · rw [if_pos hj, if_pos hj]
            by_cases hji : j = i
            · subst hji
              rw [List.getElem?_set_self hli, List.getElem?_map, hs]; rfl
            · rw [List.getElem?_set_ne (fun e => hji e.symm)]
              have := congrArg (fun l => l[j]?) ht
              simp only [List.getElem?_take, if_pos (show j < i by omega)] at this
              exact this
          · rw [if_neg hj, if_neg hj])
      refine ⟨ids', b, h, ?_⟩
      rw [hb, List.drop_eq_getElem_cons hlt, List.forall_mem_cons]
      simp only [hf, true_and]
    · rw [if_neg hf, alone_done]
      refine ⟨ids, false, rfl, ?_⟩
      rw [List.drop_eq_getElem_cons hlt, List.forall_mem_cons]
      simp only [hf, false_and, Bool.false_eq_true]

/-- A call that is not interrupted returns whether the facet is an interface segment, whatever earlier calls left in the
static vector. -/
theorem alone_right {segs : List (List ℕ)} (hs : Sorted segs) (f : List Vtx) (ids : List ℕ) (k : ℕ)
    (hk : f.length + 3 ≤ k) (hl : ids.length = f.length) :
    ∃ ids' b, alone segs k (ids, ⟨f, .loop 0⟩) = (ids', ⟨f, .done b⟩) ∧ (b = true ↔ IsSegment segs f) := by
  obtain ⟨ids', b, h, hb⟩ := alone_loop segs f f.length 0 ids k (by omega) hk hl (by simp)
  refine ⟨ids', b, h, ?_⟩
  rw [hb, List.drop_zero, mem_segs hs]
  rfl

/-! ## Schedules -/

theorem run_replicate (segs : List (List ℕ)) (n : ℕ) : ∀ (k : ℕ) (s : State) (t : Thread), s.threads[n]? = some t →
    run segs s (List.replicate k n) =
      ⟨(alone segs k (s.ids, t)).1, s.threads.set n (alone segs k (s.ids, t)).2⟩
  | 0, s, t, h => by
    simp only [List.replicate, run, List.foldl_nil, alone]
    obtain ⟨hlt, ht⟩ := List.getElem?_eq_some_iff.1 h
    rw [← ht, List.set_getElem_self]
  | k + 1, s, t, h => by
    have hlt : n < s.threads.length := (List.getElem?_eq_some_iff.1 h).1
    have hst : step segs s n = ⟨(stepThread segs s.ids t).1, s.threads.set n ⟨t.verts, (stepThread segs s.ids t).2⟩⟩ := by
      unfold step; rw [h]
    have : run segs s (List.replicate (k + 1) n) = run segs (step segs s n) (List.replicate k n) := rfl
    rw [this, hst, run_replicate segs n k _ ⟨t.verts, (stepThread segs s.ids t).2⟩
      (by simp only; rw [List.getElem?_set_self hlt])]
    simp only [List.set_set, alone]

theorem run_append (segs : List (List ℕ)) (s : State) (a b : List ℕ) :
    run segs s (a ++ b) = run segs (run segs s a) b := List.foldl_append

/-- Calls that do not overlap: the schedule runs the calls `order` one after the other, each to its end. -/
def serial (facets : List (List Vtx)) (order : List ℕ) : List ℕ :=
  order.flatMap fun n => List.replicate ((facets[n]?.elim 0 List.length) + 3) n

theorem serial_inv {segs : List (List ℕ)} (hs : Sorted segs) (facets : List (List Vtx)) (d : ℕ)
    (hd : ∀ f ∈ facets, f.length = d) : ∀ (order : List ℕ) (s : State), order.Nodup → s.ids.length = d →
    s.threads.length = facets.length →
    (∀ (n : ℕ) (f : List Vtx), facets[n]? = some f → n ∈ order → s.threads[n]? = some (Thread.mk f (.loop 0))) →
    (∀ (n : ℕ) (f : List Vtx), facets[n]? = some f → n ∉ order → ∃ b, s.threads[n]? = some (Thread.mk f (.done b)) ∧ (b = true ↔ IsSegment segs f)) →
    ∀ (n : ℕ) (f : List Vtx), facets[n]? = some f →
      ∃ b, (run segs s (serial facets order)).threads[n]? = some (Thread.mk f (.done b)) ∧ (b = true ↔ IsSegment segs f)
  | [], s, _, _, _, _, h2, n, f, hf => h2 n f hf (by simp)
  | m :: order, s, hnd, hl, hlen, h1, h2, n, f, hf => by
    have hnd' := List.nodup_cons.1 hnd
    have e : serial facets (m :: order) = List.replicate ((facets[m]?.elim 0 List.length) + 3) m ++ serial facets order := rfl
    rw [e, run_append]
    cases hm : facets[m]? with
    | none =>
      have hn : s.threads[m]? = none := by
        rw [List.getElem?_eq_none_iff] at hm ⊢; omega
      have hid : ∀ k, run segs s (List.replicate k m) = s := by
        intro k
        induction k with
        | zero => rfl
        | succ k ih =>
          have : run segs s (List.replicate (k + 1) m) = run segs (step segs s m) (List.replicate k m) := rfl
          rw [this]
          have : step segs s m = s := by unfold step; rw [hn]
          rw [this, ih]
      rw [hid]
      refine serial_inv hs facets d hd order s hnd'.2 hl hlen (fun j g hg hj => h1 j g hg (List.mem_cons_of_mem _ hj))
        (fun j g hg hj => h2 j g hg ?_) n f hf
      intro hj'
      rcases List.mem_cons.1 hj' with rfl | hj'
      · rw [hm] at hg; cases hg
      · exact hj hj'
    | some g =>
      have hg := h1 m g hm (List.mem_cons_self ..)
      have hgd : g.length = d := hd g (List.mem_of_getElem? hm)
      have hlt : m < s.threads.length := (List.getElem?_eq_some_iff.1 hg).1
      rw [run_replicate segs m _ s _ hg]
      obtain ⟨ids', b, hb, hb2⟩ := alone_right hs g s.ids (g.length + 3) (le_refl _) (by omega)
      have hlen' : ids'.length = d := by
        have := alone_length segs (g.length + 3) (s.ids, ⟨g, .loop 0⟩)
        rw [hb] at this
        simp only at this
        omega
      simp only [Option.elim]
      rw [hb]
      refine serial_inv hs facets d hd order _ hnd'.2 hlen' (by simpa using hlen) ?_ ?_ n f hf
      · intro j f' hf' hj
        have hne : m ≠ j := by rintro rfl; exact hnd'.1 hj
        simp only
        rw [List.getElem?_set_ne hne]
        exact h1 j f' hf' (List.mem_cons_of_mem _ hj)
      · intro j f' hf' hj
        simp only
        by_cases hne : m = j
        · subst hne
          rw [List.getElem?_set_self hlt]
          rw [hm] at hf'
          cases hf'
          exact ⟨b, rfl, hb2⟩
        · rw [List.getElem?_set_ne hne]
          refine h2 j f' hf' ?_
          intro hj'
          rcases List.mem_cons.1 hj' with rfl | hj'
          · exact hne rfl
          · exact hj hj'

/-- Calls that do not overlap in time return the right answers: any number of calls, in any order, with any content of
the static vector.  Calls that overlap: see `C181_overlap_false`. -/
theorem C49_serial (segs : List (List ℕ)) (hs : Sorted segs) (d : ℕ) (facets : List (List Vtx))
    (hd : ∀ f ∈ facets, f.length = d) (ids : List ℕ) (hl : ids.length = d) (order : List ℕ) (hnd : order.Nodup)
    (hall : ∀ n, n < facets.length → n ∈ order) (n : ℕ) (f : List Vtx) (hf : facets[n]? = some f) :
    ∃ b, answer (run segs (start ids facets) (serial facets order)) n = some b ∧ (b = true ↔ IsSegment segs f) := by
  obtain ⟨b, h1, h2⟩ := serial_inv hs facets d hd order (start ids facets) hnd hl (by simp [start])
    (fun j g hg _ => by simp [start, List.getElem?_map, hg])
    (fun j g hg hj => absurd (hall j (List.getElem?_eq_some_iff.1 hg).1) hj) n f hf
  refine ⟨b, ?_, h2⟩
  unfold answer
  rw [h1]

example : ∃ (segs : List (List ℕ)) (facets : List (List Vtx)), Sorted segs ∧ (∀ f ∈ facets, f.length = 2) ∧
    (∀ n, n < facets.length → n ∈ [1, 0]) ∧ answer (run segs (start [7, 7] facets) (serial facets [1, 0])) 0 = some true ∧
    answer (run segs (start [7, 7] facets) (serial facets [1, 0])) 1 = some false := by
  refine ⟨[[1, 2], [3, 4]], [[⟨true, 2⟩, ⟨true, 1⟩], [⟨true, 2⟩, ⟨true, 3⟩]], ?_, by decide, by decide, by decide, by decide⟩
  intro q hq
  fin_cases hq <;> decide

/-! ## Overlapping calls -/

/-- In every schedule, a call for a facet with a vertex off the interface never returns `true`, and whenever it returns,
the answer is right. -/
theorem C49_off_interface (segs : List (List ℕ)) (ids : List ℕ) (facets : List (List Vtx)) (sched : List ℕ) (n : ℕ)
    (f : List Vtx) (hf : facets[n]? = some f) (hoff : ∃ v ∈ f, v.flag = false) :
    answer (run segs (start ids facets) sched) n ≠ some true ∧ ¬ IsSegment segs f := by
  obtain ⟨v, hv, hvf⟩ := hoff
  refine ⟨?_, fun h => by have := h.1 v hv; rw [hvf] at this; cases this⟩
  obtain ⟨j, hj, rfl⟩ := List.getElem_of_mem hv
  -- the call is in the loop at or before the vertex, or has returned false
  have inv : ∀ (sched : List ℕ) (s : State),
      (∃ t, s.threads[n]? = some t ∧ t.verts = f ∧ ((∃ i, t.pc = .loop i ∧ i ≤ j) ∨ t.pc = .done false)) →
      ∃ t, (run segs s sched).threads[n]? = some t ∧ t.verts = f ∧
        ((∃ i, t.pc = .loop i ∧ i ≤ j) ∨ t.pc = .done false) := by
    intro sched
    induction sched with
    | nil => intro s h; exact h
    | cons m sched ih =>
      intro s h
      refine ih (step segs s m) ?_
      obtain ⟨t, ht, hvf', hpc⟩ := h
      unfold step
      cases hm : s.threads[m]? with
      | none => exact ⟨t, ht, hvf', hpc⟩
      | some u =>
        simp only
        by_cases hmn : m = n
        · subst hmn
          rw [ht] at hm; cases hm
          have hlt : m < s.threads.length := (List.getElem?_eq_some_iff.1 ht).1
          rw [List.getElem?_set_self hlt]
          refine ⟨_, rfl, hvf', ?_⟩
          simp only
          rcases hpc with ⟨i, hi, hij⟩ | hd
          · unfold stepThread
            rw [hi]
            simp only
            have hlti : i < t.verts.length := by rw [hvf']; omega
            rw [List.getElem?_eq_getElem hlti]
            simp only
            by_cases hfl : t.verts[i].flag = true
            · rw [if_pos hfl]
              refine Or.inl ⟨i + 1, rfl, ?_⟩
              by_contra hgt
              have : i = j := by omega
              subst this
              subst hvf'
              rw [hvf] at hfl; cases hfl
            · rw [if_neg hfl]; exact Or.inr rfl
          · unfold stepThread
            rw [hd]; exact Or.inr rfl
        · rw [List.getElem?_set_ne hmn]
          exact ⟨t, ht, hvf', hpc⟩
  obtain ⟨t, ht, _, hpc⟩ := inv sched (start ids facets)
    ⟨⟨f, .loop 0⟩, by simp [start, List.getElem?_map, hf], rfl, Or.inl ⟨0, rfl, Nat.zero_le _⟩⟩
  unfold answer
  rw [ht]
  rcases hpc with ⟨i, hi, _⟩ | hd
  · obtain ⟨a, b⟩ := t; simp only at hi; subst hi; simp
  · obtain ⟨a, b⟩ := t; simp only at hd; subst hd; simp

example : ∃ v ∈ [(⟨true, 1⟩ : Vtx), ⟨false, 2⟩], v.flag = false := ⟨⟨false, 2⟩, by simp, rfl⟩

/-- C181 fails for overlapping calls: for any two facets whose vertices lie on the interface there is a schedule in which
the call for the first one returns the answer for the second one. -/
theorem C181_overlap_false (segs : List (List ℕ)) (hs : Sorted segs) (ids : List ℕ) (d : ℕ) (hl : ids.length = d)
    (f g : List Vtx) (hf : f.length = d) (hg : g.length = d) (hff : ∀ v ∈ f, v.flag = true)
    (hgf : ∀ v ∈ g, v.flag = true) : ∃ sched b, answer (run segs (start ids [f, g]) sched) 0 = some b ∧
    (b = true ↔ IsSegment segs g) := by
  -- the first call fills the vector, the second one overwrites it, the first one goes on
  have loop : ∀ (h : List Vtx), h.length = d → (∀ v ∈ h, v.flag = true) → ∀ (i : ℕ), i ≤ d → ∀ ids : List ℕ,
      ids.length = d → ∃ ids', alone segs i (ids, ⟨h, .loop 0⟩) = (ids', ⟨h, .loop i⟩) ∧ ids'.length = d ∧
        ids'.take i = (h.map Vtx.id).take i := by
    intro h hh hfl i
    have snoc : ∀ k c, alone segs (k + 1) c = ((stepThread segs (alone segs k c).1 (alone segs k c).2).1,
        ⟨c.2.verts, (stepThread segs (alone segs k c).1 (alone segs k c).2).2⟩) := by
      intro k
      induction k with
      | zero => intro c; rfl
      | succ k ih => intro c; rw [alone, ih]; rfl
    induction i with
    | zero => intro _ ids hids; exact ⟨ids, rfl, hids, by simp⟩
    | succ i ih =>
      intro hi ids hids
      obtain ⟨ids', h1, h2, h3⟩ := ih (by omega) ids hids
      have hlt : i < h.length := by omega
      have hsome : h[i]? = some h[i] := List.getElem?_eq_getElem hlt
      rw [snoc, h1]
      simp only [stepThread, hsome, if_pos (hfl h[i] (List.getElem_mem hlt))]
      refine ⟨_, rfl, by rw [List.length_set]; exact h2, ?_⟩
      have hli : i < ids'.length := by omega
      apply List.ext_getElem?
      intro j
      rw [List.getElem?_take, List.getElem?_take]
      by_cases hj : j < i + 1
      · rw [if_pos hj, if_pos hj]
        by_cases hji : j = i
        · subst hji
          rw [List.getElem?_set_self hli, List.getElem?_map, hsome]; rfl
        · rw [List.getElem?_set_ne (fun e => hji e.symm)]
          have := congrArg (fun l => l[j]?) h3
          simp only [List.getElem?_take, if_pos (show j < i by omega)] at this
          exact this
      · rw [if_neg hj, if_neg hj]
  obtain ⟨ids1, a1, a2, _⟩ := loop f hf hff d le_rfl ids hl
  obtain ⟨ids2, b1, b2, b3⟩ := loop g hg hgf d le_rfl ids1 a2
  have hids2 : ids2 = g.map Vtx.id := by
    rw [List.take_of_length_le (by omega), List.take_of_length_le (by simp; omega)] at b3
    exact b3
  refine ⟨List.replicate d 0 ++ (List.replicate d 1 ++ List.replicate 3 0),
    decide ((g.map Vtx.id).insertionSort (· ≤ ·) ∈ segs), ?_, ?_⟩
  · rw [run_append, run_append, run_replicate segs 0 d (start ids [f, g]) ⟨f, .loop 0⟩ rfl]
    simp only [start, List.map_cons, List.map_nil]
    rw [a1]
    simp only [List.set_cons_zero]
    rw [run_replicate segs 1 d _ ⟨g, .loop 0⟩ rfl]
    simp only
    rw [b1]
    simp only [List.set_cons_succ, List.set_cons_zero]
    rw [run_replicate segs 0 3 _ ⟨f, .loop d⟩ rfl]
    have hn : f[d]? = none := by rw [List.getElem?_eq_none_iff]; omega
    simp only [alone, stepThread, hn, List.set_cons_zero, hids2, answer, List.getElem?_cons_zero]
  · rw [decide_eq_true_iff, mem_segs hs]
    exact ⟨fun h => ⟨hgf, h⟩, fun h => h.2⟩

/-- Two threads: one asks about a facet of the interface, the other about a facet that joins two interface segments, and
the latter is told that it belongs to the interface. -/
theorem C181_wrong_answer_false : ∃ (segs : List (List ℕ)) (ids : List ℕ) (f g : List Vtx) (sched : List ℕ),
    Sorted segs ∧ ¬ IsSegment segs f ∧ IsSegment segs g ∧
    answer (run segs (start ids [f, g]) sched) 0 = some true := by
  refine ⟨[[1, 2], [3, 4]], [0, 0], [⟨true, 2⟩, ⟨true, 3⟩], [⟨true, 1⟩, ⟨true, 2⟩], [0, 0, 1, 1, 0, 0, 0], ?_, ?_, ?_,
    by decide⟩
  · intro q hq
    fin_cases hq <;> decide
  · rintro ⟨_, q, hq, hp⟩
    fin_cases hq
    · exact absurd hp (by decide)
    · exact absurd hp (by decide)
  · exact ⟨by decide, [1, 2], by simp, by decide⟩

end Verif.Threads
