import Mathlib.Data.List.Nodup
import Mathlib.Data.List.Induction
import Verif.Adapt.Model

/-!
# C28, C29, C58, C59: adaptation
-/

namespace Verif.Adapt

open Verif RefElem

/-! ## C28: the return value -/

/-- The set of vertices of the triangulation changed. Every operation of `adapt_` on the triangulation inserts or removes a
vertex, and names are not reused, so this is the same as a change of the triangulation. -/
def Changed (before after : List Nat) : Prop := ∃ v, ¬ (v ∈ before ↔ v ∈ after)

/-- A vertex was created for this request. -/
def created (o : Outcome) : Bool := o ≠ .stale

theorem inserts_spec (ins : List Outcome) (l : Loop) :
    (ins.foldl insertOne l).next = l.next + ins.countP created ∧
      (∀ v, v ∈ (ins.foldl insertOne l).verts ↔ v ∈ l.verts ∨ (l.next ≤ v ∧ v < l.next + ins.countP created)) ∧
      (ins.foldl insertOne l).newVertices.length = l.newVertices.length + ins.countP (fun o => o ≠ .failed) := by
  induction ins generalizing l with
  | nil => simp
  | cons o ins ih =>
    obtain ⟨h1, h2, h3⟩ := ih (insertOne l o)
    simp only [List.foldl_cons]
    cases o with
    | stale =>
      refine ⟨?_, ?_, ?_⟩
      · rw [h1]; simp [insertOne, created]
      · intro v; rw [h2]; simp [insertOne, created]
      · rw [h3]; simp [insertOne]; omega
    | inserted =>
      refine ⟨?_, ?_, ?_⟩
      · rw [h1]; simp [insertOne, created]; omega
      · intro v
        rw [h2]
        simp only [insertOne, List.mem_append, List.mem_singleton, List.countP_cons, created, ne_eq, reduceCtorEq,
          not_false_eq_true, decide_true, if_true]
        constructor
        · rintro ((h | h) | h)
          · exact Or.inl h
          · right; omega
          · right; omega
        · rintro (h | h)
          · exact Or.inl (Or.inl h)
          · by_cases hv : v = l.next
            · exact Or.inl (Or.inr hv)
            · right; omega
      · rw [h3]; simp [insertOne]; omega
    | failed =>
      refine ⟨?_, ?_, ?_⟩
      · rw [h1]; simp [insertOne, created]; omega
      · intro v
        rw [h2]
        simp only [insertOne, List.mem_append, List.mem_singleton, List.countP_cons, created, ne_eq, reduceCtorEq,
          not_false_eq_true, decide_true, if_true]
        constructor
        · rintro ((h | h) | h)
          · exact Or.inl h
          · right; omega
          · right; omega
        · rintro (h | h)
          · exact Or.inl (Or.inl h)
          · by_cases hv : v = l.next
            · exact Or.inl (Or.inr hv)
            · right; omega
      · rw [h3]; simp [insertOne]

theorem removes_spec (rem : List (Nat × Bool)) (l : Loop) :
    (rem.foldl removeOne l).newVertices = l.newVertices ∧
      ∀ v, v ∈ (rem.foldl removeOne l).verts ↔ v ∈ l.verts ∧ (v, true) ∉ rem := by
  induction rem generalizing l with
  | nil => simp
  | cons r rem ih =>
    obtain ⟨h1, h2⟩ := ih (removeOne l r)
    simp only [List.foldl_cons]
    obtain ⟨w, b⟩ := r
    cases b with
    | true =>
      refine ⟨by rw [h1]; simp [removeOne], ?_⟩
      intro v
      rw [h2]
      simp only [removeOne, if_true, List.mem_filter, decide_eq_true_eq, List.mem_cons, Prod.mk.injEq, and_true, not_or]
      constructor
      · rintro ⟨⟨a, b⟩, c⟩; exact ⟨a, b, c⟩
      · rintro ⟨a, b, c⟩; exact ⟨⟨a, b⟩, c⟩
    | false =>
      refine ⟨by rw [h1]; simp [removeOne], ?_⟩
      intro v
      rw [h2]
      simp [removeOne]

/-- What a request set must satisfy: vertices have names below `next`, and removals are requested for vertices of the mesh
before the adaptation. -/
def Valid (verts : List Nat) (next : Nat) (rem : List (Nat × Bool)) : Prop :=
  (∀ v ∈ verts, v < next) ∧ ∀ r ∈ rem, r.1 ∈ verts

/-- The exact return value: true iff some insertion request did not end with the error message. -/
theorem C28_result (verts : List Nat) (next : Nat) (ins : List Outcome) (rem : List (Nat × Bool)) :
    (adapt_ verts next ins rem).2 = true ↔ ∃ o ∈ ins, o ≠ .failed := by
  unfold adapt_
  split
  · rename_i h
    have : ins = [] := List.length_eq_zero_iff.1 h.1
    simp [this]
  · simp only [decide_eq_true_eq]
    rw [(removes_spec _ _).1, (inserts_spec _ _).2.2]
    simp [List.countP_pos_iff]

/-- The exact change: the triangulation changed iff some request created a vertex or removed one. -/
theorem C28_changed (verts : List Nat) (next : Nat) (ins : List Outcome) (rem : List (Nat × Bool))
    (hv : Valid verts next rem) :
    Changed verts (adapt_ verts next ins rem).1.verts ↔ (∃ o ∈ ins, o = .inserted ∨ o = .failed) ∨ ∃ r ∈ rem, r.2 = true := by
  have key : ∀ v, v ∈ (adapt_ verts next ins rem).1.verts ↔
      (v ∈ verts ∨ (next ≤ v ∧ v < next + ins.countP created)) ∧ (v, true) ∉ rem := by
    intro v
    unfold adapt_
    split
    · rename_i h
      have h1 : ins = [] := List.length_eq_zero_iff.1 h.1
      have h2 : rem = [] := List.length_eq_zero_iff.1 h.2
      simp only [h1, h2, List.countP_nil, List.not_mem_nil, not_false_eq_true, and_true]
      constructor
      · exact Or.inl
      · rintro (h | h)
        · exact h
        · omega
    · simp only
      rw [(removes_spec _ _).2, (inserts_spec _ _).2.1]
  have hcr : 0 < ins.countP created ↔ ∃ o ∈ ins, o = .inserted ∨ o = .failed := by
    rw [List.countP_pos_iff]
    constructor
    · rintro ⟨o, ho, hc⟩
      refine ⟨o, ho, ?_⟩
      cases o <;> simp_all [created]
    · rintro ⟨o, ho, hc⟩
      refine ⟨o, ho, ?_⟩
      rcases hc with rfl | rfl <;> simp [created]
  rw [← hcr]
  constructor
  · rintro ⟨v, hne⟩
    by_contra hno
    rw [not_or] at hno
    obtain ⟨h1, h2⟩ := hno
    apply hne
    rw [key]
    constructor
    · intro h
      refine ⟨Or.inl h, fun hr => h2 ⟨_, hr, rfl⟩⟩
    · rintro ⟨h | h, -⟩
      · exact h
      · omega
  · rintro (h | ⟨r, hr, hb⟩)
    · refine ⟨next, ?_⟩
      rw [key]
      have hn : next ∉ verts := fun h => absurd (hv.1 _ h) (by omega)
      have hr : (next, true) ∉ rem := fun h => hn (hv.2 _ h)
      intro hiff
      exact hn (hiff.2 ⟨Or.inr ⟨by omega, by omega⟩, hr⟩)
    · refine ⟨r.1, ?_⟩
      rw [key]
      intro hiff
      refine (hiff.1 (hv.2 r hr)).2 ?_
      rw [← hb]
      exact hr

/-- C28 for request sets without stale edges and failed extensions in which a vertex is inserted if one is removed. -/
theorem C28_result_changed (verts : List Nat) (next : Nat) (ins : List Outcome) (rem : List (Nat × Bool))
    (hv : Valid verts next rem) (hins : ∀ o ∈ ins, o = .inserted) (hrem : (∃ r ∈ rem, r.2 = true) → ins ≠ []) :
    (adapt_ verts next ins rem).2 = true ↔ Changed verts (adapt_ verts next ins rem).1.verts := by
  rw [C28_result, C28_changed _ _ _ _ hv]
  constructor
  · rintro ⟨o, ho, -⟩
    exact Or.inl ⟨o, ho, Or.inl (hins o ho)⟩
  · rintro (⟨o, ho, -⟩ | h)
    · exact ⟨o, ho, by rw [hins o ho]; decide⟩
    · obtain ⟨o, ho⟩ := List.exists_mem_of_ne_nil _ (hrem h)
      exact ⟨o, ho, by rw [hins o ho]; decide⟩

example : Valid [0, 1, 2, 3] 4 [(1, true), (2, false)] ∧ ∀ o ∈ [Outcome.inserted, .inserted], o = .inserted := by
  refine ⟨⟨by decide, by decide⟩, by decide⟩

/-- C180 is false for coarsening: if vertices are only removed, `adapt()` returns false. -/
theorem C180_removal_false : ¬ ∀ verts next ins rem, Valid verts next rem →
    Changed verts (adapt_ verts next ins rem).1.verts → (adapt_ verts next ins rem).2 = true := by
  intro h
  have hv : Valid [0, 1, 2, 3] 4 [(3, true)] := ⟨by decide, by decide⟩
  have := h [0, 1, 2, 3] 4 [] [(3, true)] hv ((C28_changed _ _ _ _ hv).2 (Or.inr ⟨(3, true), by simp, rfl⟩))
  exact absurd this (by decide)

/-- C180 is false if all requested edges are stale: `adapt()` returns true although nothing changed. -/
theorem C180_stale_false : ¬ ∀ verts next ins rem, Valid verts next rem →
    (adapt_ verts next ins rem).2 = true → Changed verts (adapt_ verts next ins rem).1.verts := by
  intro h
  have hv : Valid [0, 1, 2, 3] 4 [] := ⟨by decide, by decide⟩
  have := h [0, 1, 2, 3] 4 [.stale] [] hv (by decide)
  rw [C28_changed _ _ _ _ hv] at this
  simp at this

/-- C180 is false if the only request is an extension that cannot be joined: the vertex stays in the triangulation, but
`adapt()` returns false. -/
theorem C180_failed_false : ¬ ∀ verts next ins rem, Valid verts next rem → rem = [] →
    Changed verts (adapt_ verts next ins rem).1.verts → (adapt_ verts next ins rem).2 = true := by
  intro h
  have hv : Valid [0, 1, 2, 3] 4 [] := ⟨by decide, by decide⟩
  have := h [0, 1, 2, 3] 4 [.failed] [] hv rfl ((C28_changed _ _ _ _ hv).2 (Or.inl ⟨.failed, by simp, Or.inr rfl⟩))
  exact absurd this (by decide)

/-- C180 is false for `adapt(handle)`: it returns true without any request. -/
theorem C180_handle_false : ¬ ∀ verts next ins rem, Valid verts next rem →
    (adaptHandle verts next ins rem).2 = true → Changed verts (adaptHandle verts next ins rem).1.verts := by
  intro h
  have hv : Valid [0, 1, 2] 3 [] := ⟨by decide, by decide⟩
  have := h [0, 1, 2] 3 [] [] hv rfl
  rw [show (adaptHandle [0, 1, 2] 3 [] []).1 = (adapt_ [0, 1, 2] 3 [] []).1 from rfl, C28_changed _ _ _ _ hv] at this
  simp at this

/-! ## C58: components of new elements -/

/-- The vertex created for request number `i`. -/
def vertexOf (next : Nat) (ins : List Outcome) (i : Nat) : Nat := next + (ins.take i).countP created

theorem newVertices_spec (ins : List Outcome) (l : Loop) (h : ∀ o ∈ ins, o ≠ .failed) :
    (ins.foldl insertOne l).newVertices = l.newVertices ++ (List.range ins.length).map fun i =>
      if ins[i]? = some .inserted then some (vertexOf l.next ins i) else none := by
  induction ins using List.reverseRecOn with
  | nil => simp
  | append_singleton ins o ih =>
    have ih := ih (fun o ho => h o (by simp [ho]))
    have hn := (inserts_spec ins l).1
    have hmap : ((List.range ins.length).map fun i =>
        if (ins ++ [o])[i]? = some .inserted then some (vertexOf l.next (ins ++ [o]) i) else none) =
        (List.range ins.length).map fun i => if ins[i]? = some .inserted then some (vertexOf l.next ins i) else none := by
      apply List.map_congr_left
      intro i hi
      rw [List.mem_range] at hi
      rw [List.getElem?_append_left hi]
      unfold vertexOf
      rw [List.take_append_of_le_length (by omega)]
    rw [List.foldl_append, List.foldl_cons, List.foldl_nil, List.length_append, List.length_singleton, List.range_succ,
      List.map_append, hmap]
    have ho := h o (by simp)
    cases o with
    | stale => simp [insertOne, ih]
    | inserted => simp [insertOne, ih, hn, vertexOf]
    | failed => exact absurd rfl ho

/-- C58: if no extension fails, the elements around the vertex created by request `i` get the component of request `i`,
and nothing else is assigned to that vertex. -/
theorem C58_component (next : Nat) (verts : List Nat) (ins : List Outcome) (rem : List (Nat × Bool)) (ids : List Nat)
    (hlen : ids.length = ins.length) (hne : ¬ (ins = [] ∧ rem = [])) (h : ∀ o ∈ ins, o ≠ .failed) (v c : Nat) :
    (v, c) ∈ assignments (adapt_ verts next ins rem).1.newVertices ids ↔
      ∃ i, ins[i]? = some .inserted ∧ v = vertexOf next ins i ∧ ids[i]? = some c := by
  have hnv : (adapt_ verts next ins rem).1.newVertices = (List.range ins.length).map fun i =>
      if ins[i]? = some .inserted then some (vertexOf next ins i) else none := by
    unfold adapt_
    rw [if_neg (by simpa [List.length_eq_zero_iff] using hne)]
    simp only
    rw [(removes_spec _ _).1, newVertices_spec _ _ h]
    simp
  rw [hnv]
  unfold assignments
  simp only [List.mem_filterMap, Option.map_eq_some_iff, Prod.mk.injEq]
  constructor
  · rintro ⟨⟨ov, c'⟩, hmem, v', hv', rfl, rfl⟩
    obtain ⟨i, hi, hget⟩ := List.mem_iff_getElem.1 hmem
    simp only [List.length_zip, List.length_map, List.length_range] at hi
    simp only [List.getElem_zip, List.getElem_map, List.getElem_range, Prod.mk.injEq] at hget
    obtain ⟨h1, h2⟩ := hget
    simp only at hv'
    rw [hv'] at h1
    split at h1
    · rename_i hins
      simp only [Option.some.injEq] at h1
      exact ⟨i, hins, h1.symm, by rw [List.getElem?_eq_getElem (by omega), h2]⟩
    · simp at h1
  · rintro ⟨i, hins, rfl, hid⟩
    have hi : i < ins.length := (List.getElem?_eq_some_iff.1 hins).1
    obtain ⟨hi', hc⟩ := List.getElem?_eq_some_iff.1 hid
    refine ⟨(some (vertexOf next ins i), c), ?_, _, rfl, rfl, rfl⟩
    rw [List.mem_iff_getElem]
    refine ⟨i, by simp; omega, ?_⟩
    simp only [List.getElem_zip, List.getElem_map, List.getElem_range, hins, if_true, hc]

example : ([2, 0, 1] : List Nat).length = ([.inserted, .stale, .inserted] : List Outcome).length ∧
    ∀ o ∈ ([.inserted, .stale, .inserted] : List Outcome), o ≠ .failed := by decide

/-- C150 is false if an extension fails: the vertex of the second request gets the component of the first. -/
theorem C150_failed_false : ¬ ∀ (verts : List Nat) (next : Nat) (ins : List Outcome) (rem : List (Nat × Bool)) (ids : List Nat),
    Valid verts next rem → ids.length = ins.length → ∀ i c, ins[i]? = some .inserted → ids[i]? = some c →
      (vertexOf next ins i, c) ∈ assignments (adapt_ verts next ins rem).1.newVertices ids := by
  intro h
  have := h [0, 1, 2, 3] 4 [.failed, .inserted] [] [0, 1] ⟨by decide, by decide⟩ rfl 1 1 rfl rfl
  exact absurd this (by decide)

/-! ## C29: requests -/

/-- Entries under the protection of `inserted_`. -/
def protectedEdges (q : Queues) : List (Option (List Nat)) := (q.insert.filter (·.dedup)).map (·.edge)

/-- The invariant of the queues. -/
structure Inv (q : Queues) : Prop where
  edges : ∀ k, (some k ∈ protectedEdges q ↔ k ∈ q.inserted)
  noPoint : none ∉ protectedEdges q
  nodup : (protectedEdges q).Nodup
  remove : ∀ v, v ∈ q.remove ↔ v ∈ q.removed
  removeNodup : q.remove.Nodup

theorem inv_pushEdge {q : Queues} (h : Inv q) (k : List Nat) : Inv (pushEdge q k) := by
  unfold pushEdge
  split
  · exact h
  · rename_i hk
    have hp : protectedEdges { q with inserted := k :: q.inserted, insert := q.insert ++ [⟨some k, true⟩] } =
        protectedEdges q ++ [some k] := by simp [protectedEdges]
    refine ⟨?_, ?_, ?_, h.remove, h.removeNodup⟩
    · intro j
      rw [hp]
      simp only [List.mem_append, List.mem_cons, List.not_mem_nil, or_false, Option.some.injEq, h.edges]
      exact or_comm
    · rw [hp]
      simp [h.noPoint]
    · rw [hp, List.nodup_append]
      refine ⟨h.nodup, by simp, ?_⟩
      intro a ha b hb hab
      simp only [List.mem_singleton] at hb
      subst hb; subst hab
      exact hk ((h.edges k).1 ha)

theorem inv_pushRemove {q : Queues} (h : Inv q) (v : Nat) : Inv (pushRemove q v) := by
  unfold pushRemove
  split
  · exact h
  · rename_i hv
    refine ⟨h.edges, h.noPoint, h.nodup, ?_, ?_⟩
    · intro w
      simp only [List.mem_append, List.mem_cons, List.not_mem_nil, or_false, h.remove]
      exact or_comm
    · simp only
      rw [List.nodup_append]
      refine ⟨h.removeNodup, by simp, ?_⟩
      intro a ha b hb hab
      simp only [List.mem_singleton] at hb
      subst hb; subst hab
      exact hv ((h.remove a).1 ha)

theorem inv_pushFree {q : Queues} (h : Inv q) (k : Option (List Nat)) : Inv (pushFree q k) := by
  have hp : protectedEdges (pushFree q k) = protectedEdges q := by simp [protectedEdges, pushFree]
  refine ⟨?_, ?_, ?_, h.remove, h.removeNodup⟩
  · intro j; rw [hp]; exact h.edges j
  · rw [hp]; exact h.noPoint
  · rw [hp]; exact h.nodup

theorem inv_foldl {f : Queues → Nat → Queues} (hf : ∀ q e, Inv q → Inv (f q e)) (l : List Nat) {q : Queues} (h : Inv q) :
    Inv (l.foldl f q) := by
  induction l generalizing q with
  | nil => exact h
  | cons e l ih => exact ih (hf q e h)

theorem inv_collect {g : View} {q : Queues} (h : Inv q) : Inv (collectInterface g (collectBulk g q)) := by
  refine inv_foldl ?_ _ (inv_foldl ?_ _ h)
  · intro q e hq
    unfold interfaceOne
    split
    · exact inv_pushEdge hq _
    · split
      · split
        · exact inv_pushRemove hq _
        · exact hq
      · exact hq
  · intro q e hq
    unfold bulkOne
    split
    · split
      · exact hq
      · exact inv_pushEdge hq _
    · split
      · split
        · exact inv_pushRemove hq _
        · exact hq
      · exact hq

theorem inv_run (ops : List Op) : Inv (run ops) := by
  unfold run
  have hinit : Inv init := ⟨by simp [init, protectedEdges], by simp [init, protectedEdges], by simp [init, protectedEdges],
    by simp [init], by simp [init]⟩
  induction ops using List.reverseRecOn with
  | nil => exact hinit
  | append_singleton ops o ih =>
    rw [List.foldl_append, List.foldl_cons, List.foldl_nil]
    generalize ops.foldl step init = q at ih
    cases o with
    | refineEdge k => exact inv_pushEdge ih k
    | cell => exact inv_pushFree ih _
    | extend => exact inv_pushFree ih _
    | cross k => exact inv_pushFree ih _
    | removeVertex v => exact inv_pushRemove ih v
    | mark r e => exact ⟨ih.edges, ih.noPoint, ih.nodup, ih.remove, ih.removeNodup⟩
    | imark r e =>
      simp only [step]
      split
      · exact ⟨ih.edges, ih.noPoint, ih.nodup, ih.remove, ih.removeNodup⟩
      · exact ih
    | adapt g => exact inv_collect ih
    | postAdapt leaf =>
      exact ⟨by simp [step, protectedEdges], by simp [step, protectedEdges], by simp [step, protectedEdges], by simp [step],
        by simp [step]⟩
    | ipostAdapt => exact ⟨ih.edges, ih.noPoint, ih.nodup, ih.remove, ih.removeNodup⟩

/-- How often the edge `k` is in the queue of insertions. -/
def queued (q : Queues) (k : List Nat) : Nat := q.insert.countP (fun e => e.edge = some k)

theorem queued_eq (q : Queues) (k : List Nat) :
    queued q k = (protectedEdges q).count (some k) + q.insert.countP (fun e => e.dedup = false ∧ e.edge = some k) := by
  unfold queued protectedEdges
  induction q.insert with
  | nil => simp
  | cons e l ih =>
    rcases e with ⟨ed, d⟩
    by_cases he : ed = some k
    · subst he
      cases d <;> simp [ih] <;> omega
    · cases d <;> simp [ih, he]

theorem free_count {ops : List Op} {k : List Nat} (h : Op.cross k ∉ ops) :
    (run ops).insert.countP (fun e => e.dedup = false ∧ e.edge = some k) = 0 := by
  unfold run
  have push : ∀ q j, q.insert.countP (fun e => e.dedup = false ∧ e.edge = some k) = 0 →
      (pushEdge q j).insert.countP (fun e => e.dedup = false ∧ e.edge = some k) = 0 := by
    intro q j hq
    unfold pushEdge
    split
    · exact hq
    · simp only [List.countP_append, hq]; simp
  have rem : ∀ q j, (pushRemove q j).insert = q.insert := by
    intro q j
    unfold pushRemove
    split <;> rfl
  have fold : ∀ (f : Queues → Nat → Queues) (l : List Nat) (q : Queues),
      (∀ q e, q.insert.countP (fun e => e.dedup = false ∧ e.edge = some k) = 0 →
        (f q e).insert.countP (fun e => e.dedup = false ∧ e.edge = some k) = 0) →
      q.insert.countP (fun e => e.dedup = false ∧ e.edge = some k) = 0 →
      (l.foldl f q).insert.countP (fun e => e.dedup = false ∧ e.edge = some k) = 0 := by
    intro f l
    induction l with
    | nil => intro q _ hq; exact hq
    | cons e l ih => intro q hf hq; exact ih (f q e) hf (hf q e hq)
  induction ops using List.reverseRecOn with
  | nil => simp [init]
  | append_singleton ops o ih =>
    have ih := ih (fun hc => h (by simp [hc]))
    rw [List.foldl_append, List.foldl_cons, List.foldl_nil]
    generalize ops.foldl step init = q at ih
    cases o with
    | refineEdge j => exact push q j ih
    | cell => simp only [step, pushFree, List.countP_append, ih]; simp
    | extend => simp only [step, pushFree, List.countP_append, ih]; simp
    | cross j =>
      have hjk : j ≠ k := by
        rintro rfl
        exact h (by simp)
      simp only [step, pushFree, List.countP_append, ih]; simp [hjk]
    | removeVertex v => simp only [step]; rw [rem]; exact ih
    | mark r e => exact ih
    | imark r e =>
      simp only [step]
      split
      · exact ih
      · exact ih
    | adapt g =>
      simp only [step]
      refine fold _ _ _ ?_ (fold _ _ _ ?_ ih)
      · intro q e hq
        unfold interfaceOne
        split
        · exact push q _ hq
        · split
          · split
            · rw [rem]; exact hq
            · exact hq
          · exact hq
      · intro q e hq
        unfold bulkOne
        split
        · split
          · exact hq
          · exact push q _ hq
        · split
          · split
            · rw [rem]; exact hq
            · exact hq
          · exact hq
    | postAdapt leaf => simp [step]
    | ipostAdapt => exact ih

/-- C29, queues: after any sequence of calls every vertex is in the queue of removals at most once, and every edge is in
the queue of insertions at most once if no crossing was found for it. -/
theorem C29_once (ops : List Op) (k : List Nat) (hk : Op.cross k ∉ ops) :
    queued (run ops) k ≤ 1 ∧ (run ops).remove.Nodup := by
  have h := inv_run ops
  refine ⟨?_, h.removeNodup⟩
  rw [queued_eq, free_count hk]
  simpa using List.nodup_iff_count_le_one.1 h.nodup (some k)

/-- C29, requests are not lost: an edge that was requested since the last `postAdapt` is queued (exactly once), likewise a
vertex. -/
theorem C29_requested (ops rest : List Op) (k : List Nat) (v : Nat) (hrest : ∀ leaf, Op.postAdapt leaf ∉ rest) :
    1 ≤ queued (run (ops ++ .refineEdge k :: rest)) k ∧ v ∈ (run (ops ++ .removeVertex v :: rest)).remove := by
  have hE : ∀ q j, k ∈ q.inserted → k ∈ (pushEdge q j).inserted := by
    intro q j hq
    unfold pushEdge
    split
    · exact hq
    · simp [hq]
  have hR : ∀ q j, (pushRemove q j).inserted = q.inserted := by
    intro q j
    unfold pushRemove
    split <;> rfl
  have hE' : ∀ q j, (pushEdge q j).removed = q.removed := by
    intro q j
    unfold pushEdge
    split <;> rfl
  have hR' : ∀ q j, v ∈ q.removed → v ∈ (pushRemove q j).removed := by
    intro q j hq
    unfold pushRemove
    split
    · exact hq
    · simp [hq]
  have fold : ∀ (P : Queues → Prop) (f : Queues → Nat → Queues) (l : List Nat) (q : Queues),
      (∀ q e, P q → P (f q e)) → P q → P (l.foldl f q) := by
    intro P f l
    induction l with
    | nil => intro q _ hq; exact hq
    | cons e l ih => intro q hf hq; exact ih (f q e) hf (hf q e hq)
  have keep : ∀ (P : Queues → Prop), (∀ q j, P q → P (pushEdge q j)) → (∀ q j, P q → P (pushRemove q j)) →
      (∀ q j, P q → P (pushFree q j)) → (∀ q m, P q → P { q with mark := m }) → (∀ q m, P q → P { q with imark := m }) →
      ∀ (rest : List Op), (∀ leaf, Op.postAdapt leaf ∉ rest) → ∀ q, P q → P (rest.foldl step q) := by
    intro P h1 h2 h3 h4 h5 rest
    induction rest with
    | nil => intro _ q hq; exact hq
    | cons o rest ih =>
      intro hr q hq
      rw [List.foldl_cons]
      refine ih (fun leaf hm => hr leaf (by simp [hm])) _ ?_
      cases o with
      | refineEdge j => exact h1 q j hq
      | cell => exact h3 q _ hq
      | extend => exact h3 q _ hq
      | cross j => exact h3 q _ hq
      | removeVertex w => exact h2 q w hq
      | mark r e => exact h4 q _ hq
      | imark r e =>
        simp only [step]
        split
        · exact h5 q _ hq
        · exact hq
      | adapt g =>
        simp only [step]
        refine fold P _ _ _ ?_ (fold P _ _ _ ?_ hq)
        · intro q e hq
          unfold interfaceOne
          split
          · exact h1 q _ hq
          · split
            · split
              · exact h2 q _ hq
              · exact hq
            · exact hq
        · intro q e hq
          unfold bulkOne
          split
          · split
            · exact hq
            · exact h1 q _ hq
          · split
            · split
              · exact h2 q _ hq
              · exact hq
            · exact hq
      | postAdapt leaf => exact absurd (by simp) (hr leaf)
      | ipostAdapt => exact h5 q _ hq
  constructor
  · have hin : k ∈ (run (ops ++ .refineEdge k :: rest)).inserted := by
      unfold run
      rw [List.foldl_append, List.foldl_cons]
      refine keep (fun q => k ∈ q.inserted) hE (fun q j hq => by rw [hR]; exact hq) (fun _ _ hq => hq) (fun _ _ hq => hq)
        (fun _ _ hq => hq) rest hrest _ ?_
      simp only [step]
      unfold pushEdge
      split
      · assumption
      · simp
    rw [queued_eq]
    have := (inv_run (ops ++ .refineEdge k :: rest)).edges k
    have h1 := List.count_pos_iff.2 (this.2 hin)
    omega
  · have hin : v ∈ (run (ops ++ .removeVertex v :: rest)).removed := by
      unfold run
      rw [List.foldl_append, List.foldl_cons]
      refine keep (fun q => v ∈ q.removed) (fun q j hq => by rw [hE']; exact hq) hR' (fun _ _ hq => hq) (fun _ _ hq => hq)
        (fun _ _ hq => hq) rest hrest _ ?_
      simp only [step]
      unfold pushRemove
      split
      · assumption
      · simp
    exact ((inv_run _).remove v).2 hin

/-- Nothing is lost and the marks are kept from `q` to `q'`. -/
structure Grows (q q' : Queues) : Prop where
  inserted : ∀ k ∈ q.inserted, k ∈ q'.inserted
  removed : ∀ v ∈ q.removed, v ∈ q'.removed
  mark : q'.mark = q.mark
  imark : q'.imark = q.imark

theorem Grows.refl (q : Queues) : Grows q q := ⟨fun _ h => h, fun _ h => h, rfl, rfl⟩

theorem Grows.trans {a b c : Queues} (h : Grows a b) (h' : Grows b c) : Grows a c :=
  ⟨fun k hk => h'.inserted k (h.inserted k hk), fun k hk => h'.removed k (h.removed k hk), h'.mark.trans h.mark,
    h'.imark.trans h.imark⟩

theorem grows_pushEdge (q : Queues) (k : List Nat) : Grows q (pushEdge q k) ∧ k ∈ (pushEdge q k).inserted := by
  unfold pushEdge
  split
  · rename_i h
    exact ⟨Grows.refl q, h⟩
  · exact ⟨⟨fun _ h => by simp [h], fun _ h => h, rfl, rfl⟩, by simp⟩

theorem grows_pushRemove (q : Queues) (v : Nat) : Grows q (pushRemove q v) ∧ v ∈ (pushRemove q v).removed := by
  unfold pushRemove
  split
  · rename_i h
    exact ⟨Grows.refl q, h⟩
  · exact ⟨⟨fun _ h => h, fun _ h => by simp [h], rfl, rfl⟩, by simp⟩

theorem grows_bulkOne (g : View) (q : Queues) (e : Nat) : Grows q (bulkOne g q e) := by
  unfold bulkOne
  split
  · split
    · exact Grows.refl q
    · exact (grows_pushEdge q _).1
  · split
    · split
      · exact (grows_pushRemove q _).1
      · exact Grows.refl q
    · exact Grows.refl q

theorem grows_interfaceOne (g : View) (q : Queues) (e : Nat) : Grows q (interfaceOne g q e) := by
  unfold interfaceOne
  split
  · exact (grows_pushEdge q _).1
  · split
    · split
      · exact (grows_pushRemove q _).1
      · exact Grows.refl q
    · exact Grows.refl q

theorem grows_foldl {f : Queues → Nat → Queues} (hf : ∀ q e, Grows q (f q e)) (l : List Nat) (q : Queues) :
    Grows q (l.foldl f q) := by
  induction l generalizing q with
  | nil => exact Grows.refl q
  | cons e l ih => exact (hf q e).trans (ih _)

/-- In a loop the turn for `e` happens in a state that has grown from the first one, and grows into the last one. -/
theorem turn_of_mem {f : Queues → Nat → Queues} (hf : ∀ q e, Grows q (f q e)) {l : List Nat} {e : Nat} (he : e ∈ l)
    (q : Queues) : ∃ q1, Grows q q1 ∧ Grows (f q1 e) (l.foldl f q) := by
  obtain ⟨a, b, rfl⟩ := List.append_of_mem he
  refine ⟨a.foldl f q, grows_foldl hf a q, ?_⟩
  rw [List.foldl_append, List.foldl_cons]
  exact grows_foldl hf b _

theorem queued_pos {ops : List Op} {k : List Nat} (h : k ∈ (run ops).inserted) : 1 ≤ queued (run ops) k := by
  rw [queued_eq]
  have h1 := List.count_pos_iff.2 (((inv_run ops).edges k).2 h)
  omega

theorem run_adapt (ops : List Op) (g : View) : run (ops ++ [.adapt g]) = collectInterface g (collectBulk g (run ops)) := by
  simp [run, List.foldl_append, step]

/-- C29, marks of bulk elements: the edge of an element marked 1 is queued by `adapt()` if it is not part of the interface,
and the vertex chosen for an element marked -1 is queued. -/
theorem C29_marked (ops : List Op) (g : View) (e : Nat) (he : e ∈ g.elems) :
    ((run ops).mark e = 1 → g.isInterface (g.refEdge e) = false → 1 ≤ queued (run (ops ++ [.adapt g])) (g.refEdge e)) ∧
      ((run ops).mark e = -1 → ∀ v, g.coarse e = some v → v ∈ (run (ops ++ [.adapt g])).remove) := by
  obtain ⟨q1, h1, h2⟩ := turn_of_mem (grows_bulkOne g) he (run ops)
  have h3 := h2.trans (grows_foldl (grows_interfaceOne g) g.ielems (g.elems.foldl (bulkOne g) (run ops)))
  have heq : (g.ielems.foldl (interfaceOne g) (g.elems.foldl (bulkOne g) (run ops))) = run (ops ++ [.adapt g]) :=
    (run_adapt ops g).symm
  rw [heq] at h3
  constructor
  · intro hm hi
    apply queued_pos
    apply h3.inserted
    unfold bulkOne
    rw [h1.mark, if_pos hm, hi]
    exact (grows_pushEdge _ _).2
  · intro hm v hv
    apply ((inv_run _).remove v).2
    apply h3.removed
    unfold bulkOne
    rw [h1.mark, hm, hv]
    exact (grows_pushRemove _ _).2

/-- C29, marks of interface elements: the edge of an element marked 1 and the vertex chosen for an element marked -1 are
queued by `adapt()`. -/
theorem C29_interface_marked (ops : List Op) (g : View) (e : Nat) (he : e ∈ g.ielems) :
    (igetMark (run ops) e = 1 → 1 ≤ queued (run (ops ++ [.adapt g])) (g.irefEdge e)) ∧
      (igetMark (run ops) e = -1 → ∀ v, g.icoarse e = some v → v ∈ (run (ops ++ [.adapt g])).remove) := by
  have h0 := grows_foldl (grows_bulkOne g) g.elems (run ops)
  obtain ⟨q1, h1, h2⟩ := turn_of_mem (grows_interfaceOne g) he (g.elems.foldl (bulkOne g) (run ops))
  have heq : (g.ielems.foldl (interfaceOne g) (g.elems.foldl (bulkOne g) (run ops))) = run (ops ++ [.adapt g]) :=
    (run_adapt ops g).symm
  rw [heq] at h2
  have hmark : igetMark q1 e = igetMark (run ops) e := by
    unfold igetMark
    rw [h1.imark, h0.imark]
  constructor
  · intro hm
    apply queued_pos
    apply h2.inserted
    unfold interfaceOne
    rw [hmark, if_pos hm]
    exact (grows_pushEdge _ _).2
  · intro hm v hv
    apply ((inv_run _).remove v).2
    apply h2.removed
    unfold interfaceOne
    rw [hmark, hm, hv]
    exact (grows_pushRemove _ _).2

/-- The mark read by `adapt()` is the last one that was set and is not zero (`igetMark` after `imark`). -/
theorem C29_interface_mark_set (ops : List Op) (r : Int) (e : Nat) (hr : r ≠ 0) :
    igetMark (run (ops ++ [.imark r e])) e = r := by
  have : run (ops ++ [.imark r e]) = { run ops with imark := Map.set (run ops).imark e r } := by
    simp [run, List.foldl_append, step, hr]
  rw [this]
  unfold igetMark
  simp [Map.find_set]

/-- C110, cleaning up: after `postAdapt` of the bulk grid no request is left and no leaf element is marked. The interface
marks are left alone (see `C110_interface_marks_false`). -/
theorem C110_cleared_partial (ops : List Op) (leaf : List Nat) :
    let q := run (ops ++ [.postAdapt leaf])
    q.insert = [] ∧ q.remove = [] ∧ q.inserted = [] ∧ q.removed = [] ∧ ∀ e ∈ leaf, q.mark e = 0 := by
  intro q
  have hq : q = step (run ops) (.postAdapt leaf) := by
    simp only [q, run, List.foldl_append, List.foldl_cons, List.foldl_nil]
  rw [hq]
  refine ⟨rfl, rfl, rfl, rfl, ?_⟩
  intro e he
  simp [step, he]

/-- Two calls of refineEdge for the same edge, one marked element with that edge, a removal requested twice. -/
def exView : View := ⟨[7, 8], fun e => if e = 7 then [1, 2] else [2, 3], fun _ => some 5, [], fun _ => [], fun _ => none, fun _ => false⟩

example : let ops := [Op.refineEdge [1, 2], .mark 1 7, .mark (-1) 8, .removeVertex 5, .refineEdge [1, 2], .adapt exView]
    Op.cross [1, 2] ∉ ops ∧ queued (run ops) [1, 2] = 1 ∧ (run ops).remove = [5] := by
  refine ⟨by simp, by decide, by decide⟩

/-- C110 is false for crossings: an edge that was requested and is crossed by the interface is queued twice. -/
theorem C110_cross_false : ¬ ∀ (ops : List Op) (k : List Nat), queued (run ops) k ≤ 1 := by
  intro h
  exact absurd (h [.refineEdge [1, 2], .cross [1, 2]] [1, 2]) (by decide)

/-- C110 is false for interface marks: `postAdapt` of the bulk grid, which is all that `adapt(handle)` calls, leaves them, so
the next `adapt()` requests again what was requested before. Here the mark -1 of an interface element. -/
theorem C110_interface_marks_false : ¬ ∀ (ops : List Op) (g : View) (leaf : List Nat), g.elems = [] →
    (run (ops ++ [.adapt g, .postAdapt leaf, .adapt g])).remove = [] := by
  intro h
  exact absurd (h [.imark (-1) 3] ⟨[], fun _ => [], fun _ => none, [3], fun _ => [], fun _ => some 9, fun _ => false⟩ [] rfl)
    (by decide)

/-- C110 is false for a cycle that is finished by `postAdapt` of the interface grid (as in its `globalRefine`,
interface/grid.hh:340-350): the requests stay in the queue of the bulk grid. -/
theorem C110_interface_cycle_false : ¬ ∀ (ops : List Op) (g : View), g.elems = [] →
    (run (ops ++ [.adapt g, .ipostAdapt])).insert = [] := by
  intro h
  exact absurd (h [.imark 1 3] ⟨[], fun _ => [], fun _ => none, [3], fun _ => [4, 6], fun _ => none, fun _ => true⟩ rfl)
    (by decide)

/-! ## C29, C59: which edges are split -/

/-- Processing of a queue of edge requests; the flags tell which are interface requests. -/
inductive Run : Host → List (Bool × Pending) → List (Option (List Nat)) → Host → Prop
  | nil {h} : Run h [] [] h
  | cons {h h1 h2 i p ps o os} : Process i h p o h1 → Run h1 ps os h2 → Run h ((i, p) :: ps) (o :: os) h2

/-- Names of end points are below `next`. -/
def Bounded (h : Host) : Prop := ∀ e ∈ h.edges, ∀ x ∈ e, x < h.next

theorem process_bounded {i h p o h'} (hp : Process i h p o h') (hb : Bounded h) : Bounded h' := by
  cases hp with
  | stale => exact hb
  | split he hid hfr h1 h2 h3 =>
    intro e he x hx
    simp only at he ⊢
    rcases h3 e he with h | h
    · have := hb e h x hx
      omega
    · have := h.2 x hx
      omega

/-- An edge that is not in the triangulation and has only old vertices is not split later. -/
theorem not_split_later {h ps os h'} (hr : Run h ps os h') (e : List Nat) (he : e ∉ h.edges) (hlt : ∀ x ∈ e, x < h.next) :
    some e ∉ os := by
  induction hr with
  | nil => simp
  | @cons h h1 h2 i p ps o os hp _ ih =>
    rw [List.mem_cons, not_or]
    cases hp with
    | stale => exact ⟨by simp, ih he hlt⟩
    | @split e0 E' fresh junk hin hid hfr a1 a2 a3 =>
      refine ⟨?_, ih ?_ ?_⟩
      · simp only [Option.some.injEq]
        rintro rfl
        exact he hin
      · intro hin'
        rcases a3 e hin' with h | h
        · exact he h
        · exact absurd (hlt _ h.1) (by simp)
      · intro x hx
        have := hlt x hx
        simp only
        omega

/-- C29, splitting: however often an edge is requested, and whatever is cached, no edge is split twice in one call of
`adapt()`. -/
theorem C29_split_once {h ps os h'} (hr : Run h ps os h') (hb : Bounded h) (e : List Nat) : os.count (some e) ≤ 1 := by
  induction hr with
  | nil => simp
  | @cons h h1 h2 i p ps o os hp hrest ih =>
    have hb1 := process_bounded hp hb
    cases hp with
    | stale =>
      rw [List.count_cons]
      simp only [beq_iff_eq, reduceCtorEq, if_false, Nat.add_zero]
      exact ih hb
    | @split e0 E' fresh junk hin hid hfr a1 a2 a3 =>
      rw [List.count_cons]
      by_cases hee : e0 = e
      · subst hee
        have hno : some e0 ∉ os := by
          refine not_split_later hrest e0 a2 ?_
          intro x hx
          have := hb e0 hin x hx
          simp only
          omega
        rw [List.count_eq_zero_of_not_mem hno]
        simp
      · simp only [beq_iff_eq, Option.some.injEq, hee, if_false, Nat.add_zero]
        exact ih hb1

/-- Different vertices have different ids. -/
def UniqueIds (h : Host) : Prop := ∀ x < h.next, ∀ y < h.next, h.id x = h.id y → x = y

theorem perm_of_sortIds {l m : List Nat} (h : sortIds l = sortIds m) : l.Perm m := by
  unfold sortIds at h
  exact (List.perm_insertionSort _ l).symm.trans (h ▸ List.perm_insertionSort _ m)

theorem perm_of_map {f : Nat → Nat} {n : Nat} (hf : ∀ x < n, ∀ y < n, f x = f y → x = y) {l m : List Nat}
    (hl : ∀ x ∈ l, x < n) (hm : ∀ x ∈ m, x < n) (h : (l.map f).Perm (m.map f)) : l.Perm m := by
  rw [List.perm_iff_count]
  intro a
  by_cases ha : a < n
  · have key : ∀ l : List Nat, (∀ x ∈ l, x < n) → (l.map f).count (f a) = l.count a := by
      intro l
      induction l with
      | nil => simp
      | cons x l ih =>
        intro hx
        rw [List.map_cons, List.count_cons, List.count_cons, ih (fun y hy => hx y (by simp [hy]))]
        have : (f x == f a) = (x == a) := by
          rw [Bool.eq_iff_iff]
          simp only [beq_iff_eq]
          exact ⟨fun h => hf x (hx x (by simp)) a ha h, fun h => by rw [h]⟩
        rw [this]
    rw [← key l hl, ← key m hm]
    exact h.count_eq _
  · rw [List.count_eq_zero_of_not_mem (fun h => ha (hl a h)), List.count_eq_zero_of_not_mem (fun h => ha (hm a h))]

/-- C59 for one request: if all vertices have different ids and the id of the stored edge is not cached, the edge that is
split is the one the request was made for. -/
theorem C59_own_edge {i h p e h'} (hp : Process i h p (some e) h') (hb : Bounded h) (hu : UniqueIds h)
    (hc : p.cached = false) (req : List Nat) (hreq : ∀ x ∈ req, x < h.next) (hid : p.edgeId = sortIds (req.map h.id)) :
    e.Perm req := by
  cases hp with
  | @split _ E' fresh junk hin hid' hfr a1 a2 a3 =>
    rcases hid' with h | h
    · rw [hc] at h; simp at h
    · exact perm_of_map hu (hb e hin) hreq (perm_of_sortIds (h.trans hid))

theorem process_unique {h p o h'} (hp : Process true h p o h') (hu : UniqueIds h) :
    UniqueIds h' ∧ h.next ≤ h'.next ∧ ∀ x < h.next, h'.id x = h.id x := by
  cases hp with
  | stale => exact ⟨hu, le_refl _, fun _ _ => rfl⟩
  | @split e E' fresh junk hin hid hfr a1 a2 a3 =>
    refine ⟨?_, by simp, ?_⟩
    · intro x hx y hy hxy
      simp only [if_true] at hx hy hxy
      by_cases h1 : x = h.next
      · by_cases h2 : y = h.next
        · rw [h1, h2]
        · rw [if_pos h1, if_neg h2] at hxy
          exact absurd hxy.symm (hfr rfl y (by omega))
      · by_cases h2 : y = h.next
        · rw [if_neg h1, if_pos h2] at hxy
          exact absurd hxy (hfr rfl x (by omega))
        · rw [if_neg h1, if_neg h2] at hxy
          exact hu x (by omega) y (by omega) hxy
    · intro x hx
      simp only
      rw [if_neg (by omega)]

/-- C59 for a whole call of `adapt()` with interface requests only, whose new vertices get an id at once: every request
splits the edge it was made for or none. `reqs` are the edges for which the requests were made. -/
theorem C59_interface {h ps os h'} (hr : Run h ps os h') (hb : Bounded h) (hu : UniqueIds h)
    (hint : ∀ p ∈ ps, p.1 = true ∧ p.2.cached = false) (reqs : List (List Nat)) (hlen : reqs.length = ps.length)
    (hreq : ∀ r ∈ reqs, ∀ x ∈ r, x < h.next)
    (hid : ∀ (j : Nat) (p : Bool × Pending) (r : List Nat), ps[j]? = some p → reqs[j]? = some r → p.2.edgeId = sortIds (r.map h.id)) :
    ∀ (j : Nat) (e : List Nat), os[j]? = some (some e) → ∃ r, reqs[j]? = some r ∧ e.Perm r := by
  induction hr generalizing reqs with
  | nil => simp
  | @cons h h1 h2 i p ps o os hp hrest ih =>
    obtain ⟨hi, hc⟩ := hint (i, p) (by simp)
    simp only at hi hc
    subst hi
    cases reqs with
    | nil => simp at hlen
    | cons r reqs =>
      obtain ⟨hu1, hle, hids⟩ := process_unique hp hu
      intro j e hj
      cases j with
      | zero =>
        simp only [List.getElem?_cons_zero, Option.some.injEq] at hj
        subst hj
        exact ⟨r, rfl, C59_own_edge hp hb hu hc r (hreq r (by simp)) (hid 0 (true, p) r rfl rfl)⟩
      | succ j =>
        rw [List.getElem?_cons_succ] at hj
        have := ih (process_bounded hp hb) hu1 (fun q hq => hint q (by simp [hq])) reqs (by simpa using hlen)
          (fun r hr x hx => lt_of_lt_of_le (hreq r (by simp [hr]) x hx) hle) (by
            intro j q r' hq hr'
            rw [hid (j + 1) q r' (by simpa using hq) (by simpa using hr')]
            congr 1
            apply List.map_congr_left
            intro x hx
            exact (hids x (hreq r' (by simp [List.mem_of_getElem? hr']) x hx)).symm) j e hj
        obtain ⟨r', h1, h2⟩ := this
        exact ⟨r', by simpa using h1, h2⟩

/-- A triangle; the handle of a vertex is its id. -/
def exHost : Host := ⟨[[0, 1], [0, 2], [1, 2]], fun x => x, 3⟩

/-- The triangle with the edge [0, 1] split; the new vertex has the given id. -/
def exHost1 (i : Nat) : Host := ⟨[[0, 2], [1, 2], [0, 3], [1, 3], [2, 3]], fun x => if x = 3 then i else x, 4⟩

/-- The triangle with the edge [0, 1] split, then the edge [2, 3]. -/
def exHost2 (i j : Nat) : Host := ⟨[[0, 2], [1, 2], [0, 3], [1, 3], [0, 4], [1, 4], [2, 4], [3, 4]],
  fun x => if x = 4 then j else if x = 3 then i else x, 5⟩

theorem exHost_bounded : Bounded exHost ∧ UniqueIds exHost :=
  ⟨by unfold Bounded exHost; decide, fun _ _ _ _ h => h⟩

theorem exHost_process : Process true exHost ⟨[0, 1], false⟩ (some [0, 1]) (exHost1 3) := by
  refine Process.split (E' := (exHost1 3).edges) (fresh := 3) (junk := 0) ?_ (Or.inr (by decide)) ?_ ?_ ?_ ?_ <;>
    decide

/-- The hypotheses of `C29_split_once` and `C59_interface` are met: the edge [0, 1] is requested twice, the second
request is dropped. -/
example : Run exHost [(true, ⟨[0, 1], false⟩), (true, ⟨[0, 1], false⟩)] [some [0, 1], none] (exHost1 3) := by
  refine Run.cons exHost_process (Run.cons (Process.stale (e := [0, 3]) ?_ rfl ?_) Run.nil) <;> decide

/-- C183 is false for bulk requests: the new vertex of the first request has an id that was never set; if that memory holds
0, the second request, made for the edge with the ids 0 and 2, splits the new edge between the vertices 2 and 3. -/
theorem C183_bulk_false : ¬ ∀ {h ps os h'}, Run h ps os h' → Bounded h → UniqueIds h → (∀ p ∈ ps, p.2.cached = false) →
    ∀ (reqs : List (List Nat)), reqs.length = ps.length → (∀ r ∈ reqs, r ∈ h.edges) →
      (∀ (j : Nat) (p : Bool × Pending) (r : List Nat), ps[j]? = some p → reqs[j]? = some r → p.2.edgeId = sortIds (r.map h.id)) →
      ∀ (j : Nat) (e : List Nat), os[j]? = some (some e) → ∃ r, reqs[j]? = some r ∧ e.Perm r := by
  intro hall
  have h1 : Process false exHost ⟨[0, 1], false⟩ (some [0, 1]) (exHost1 0) := by
    refine Process.split (E' := (exHost1 0).edges) (fresh := 0) (junk := 0) ?_ (Or.inr (by decide)) ?_ ?_ ?_ ?_ <;>
      decide
  have h2 : Process false (exHost1 0) ⟨[0, 2], false⟩ (some [2, 3]) (exHost2 0 0) := by
    refine Process.split (E' := (exHost2 0 0).edges) (fresh := 0) (junk := 0) ?_ (Or.inr (by decide)) ?_ ?_ ?_ ?_ <;>
      decide
  obtain ⟨r, hr, hperm⟩ := hall (Run.cons h1 (Run.cons h2 Run.nil)) exHost_bounded.1 exHost_bounded.2 (by decide)
    [[0, 1], [0, 2]] rfl (by decide) (by
      intro j p r hp hr
      match j with
      | 0 => simp at hp hr; subst hp hr; decide
      | 1 => simp at hp hr; subst hp hr; decide
      | j + 2 => simp at hp) 1 [2, 3] rfl
  simp only [List.getElem?_cons_succ, List.getElem?_cons_zero, Option.some.injEq] at hr
  subst hr
  exact absurd hperm (by decide)

/-- C183 is false if `adapt()` is called twice without `postAdapt()`: the entry is still in the queue, its id is cached, so
the check passes for whatever edge the stored handle designates. -/
theorem C183_cached_false : ¬ ∀ {h p e h'}, Process true h p (some e) h' → Bounded h → UniqueIds h →
    ∀ (req : List Nat), (∀ x ∈ req, x < h.next) → p.edgeId = sortIds (req.map h.id) → e.Perm req := by
  intro hall
  have h2 : Process true (exHost1 3) ⟨[0, 1], true⟩ (some [2, 3]) (exHost2 3 4) := by
    refine Process.split (E' := (exHost2 3 4).edges) (fresh := 4) (junk := 0) ?_ (Or.inl rfl) ?_ ?_ ?_ ?_ <;>
      decide
  have := hall h2 (by unfold Bounded exHost1; decide) (process_unique exHost_process exHost_bounded.2).1 [0, 1]
    (by decide) (by decide)
  exact absurd this (by decide)

end Verif.Adapt
