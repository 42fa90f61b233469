import Verif.Container.Model

/-!
# C48, C65, C66: persistent containers
-/

namespace Verif.Container

variable {V : Type}

theorem find_insertAll (v : V) (k : Key) : ∀ (ks : List Key) (m : List (Key × V)),
    Map.find (insertAll m v ks) k = (Map.find m k).or (if k ∈ ks then some v else none)
  | [], m => by simp [insertAll]
  | j :: ks, m => by
    rw [insertAll, find_insertAll v k ks]
    by_cases hk : k = j
    · subst hk
      cases h : Map.find m k with
      | none => rw [Map.find_insert_new h]; simp
      | some x => rw [Map.insert_old h, h]; simp
    · rw [Map.find_insert_ne hk]
      simp [hk]

theorem find_resize (kind : Kind) (codim : ℕ) (v : V) (s : State V) (k : Key) :
    Map.find (resize kind codim v s).data k =
      if s.cseq ≠ s.gseq then
        (Map.find s.data k).or (if k ∈ s.ents ∨ k ∈ cachingIds kind codim then some v else none)
      else Map.find s.data k := by
  unfold resize
  by_cases h : s.cseq = s.gseq
  · simp [h]
  · simp only [ne_eq, h, not_false_eq_true, if_true, find_insertAll]
    by_cases h1 : k ∈ s.ents <;> by_cases h2 : k ∈ cachingIds kind codim <;> cases Map.find s.data k <;> simp [h1, h2]

theorem run_append (kind : Kind) (codim : ℕ) : ∀ (os os' : List (Op V)) (s : State V),
    run kind codim s (os ++ os') = (run kind codim s os).bind fun s' => run kind codim s' os'
  | [], _, _ => rfl
  | o :: os, os', s => by
    rw [List.cons_append, run, run]
    cases step kind codim s o with
    | none => rfl
    | some s' => exact run_append kind codim os os' s'

/-! ## Specification -/

/-- Every entity of the grid has an entry. -/
def Covered (s : State V) : Prop := ∀ k ∈ s.ents, ∃ x, read s k = some x

/-- Every change of the grid is followed by an increment of the sequence number (as `adapt(handle)` does). -/
def Announced (os : List (Op V)) : Prop := ∀ l es l', os = l ++ Op.modify es :: l' → Op.announce ∈ l'

/-- The history does not write to `k`. -/
def NoWrite (k : Key) (os : List (Op V)) : Prop := ∀ x, Op.write k x ∉ os

/-! ## C48 -/

theorem cseq_le_step {kind : Kind} {codim : ℕ} {s s' : State V} {o : Op V} (h : step kind codim s o = some s')
    (hle : s.cseq ≤ s.gseq) : s'.cseq ≤ s'.gseq := by
  cases o with
  | modify es => simp only [step, Option.some.injEq] at h; subst h; exact hle
  | announce => simp only [step, Option.some.injEq] at h; subst h; simp only; omega
  | resize v =>
    simp only [step, Option.some.injEq] at h; subst h
    unfold resize
    split_ifs
    · exact le_refl _
    · exact hle
  | write k v =>
    simp only [step] at h
    split_ifs at h
    simp only [Option.some.injEq] at h; subst h; exact hle

theorem kept_step {kind : Kind} {codim : ℕ} {s s' : State V} {o : Op V} (h : step kind codim s o = some s') {k : Key}
    {x : V} (hx : read s k = some x) : (∃ y, o = .write k y ∧ read s' k = some y) ∨ read s' k = some x := by
  unfold read at *
  cases o with
  | modify es => simp only [step, Option.some.injEq] at h; subst h; exact Or.inr hx
  | announce => simp only [step, Option.some.injEq] at h; subst h; exact Or.inr hx
  | resize v =>
    simp only [step, Option.some.injEq] at h; subst h
    refine Or.inr ?_
    rw [find_resize, hx]; simp
  | write j v =>
    simp only [step] at h
    split_ifs at h
    simp only [Option.some.injEq] at h; subst h
    simp only [Map.find_set]
    by_cases hk : k = j
    · subst hk; exact Or.inl ⟨v, rfl, by simp⟩
    · rw [if_neg hk]; exact Or.inr hx

theorem covered_resize {kind : Kind} {codim : ℕ} {s : State V} (h : s.cseq ≠ s.gseq) (v : V) :
    Covered (resize kind codim v s) := by
  intro k hk
  have hk' : k ∈ s.ents := by
    unfold resize at hk; rw [if_pos h] at hk; exact hk
  unfold read
  rw [find_resize, if_pos h, if_pos (Or.inl hk')]
  cases Map.find s.data k <;> simp

/-- The state of the bookkeeping: the container is behind the grid, or it covers the grid. -/
theorem behind_or_covered {kind : Kind} {codim : ℕ} : ∀ (os : List (Op V)) (s s' : State V), s.cseq ≤ s.gseq →
    (s.cseq < s.gseq ∨ Covered s ∨ Op.announce ∈ os) → Announced os → run kind codim s os = some s' →
    s'.cseq < s'.gseq ∨ Covered s'
  | [], s, s', _, h, _, hr => by
    simp only [run, Option.some.injEq] at hr; subst hr
    simpa using h
  | o :: os, s, s', hle, h, ha, hr => by
    rw [run, Option.bind_eq_some_iff] at hr
    obtain ⟨t, ht, hr⟩ := hr
    have ha' : Announced os := fun l es l' e => ha (o :: l) es l' (by rw [e]; rfl)
    refine behind_or_covered os t s' (cseq_le_step ht hle) ?_ ha' hr
    cases o with
    | modify es => exact Or.inr (Or.inr (ha [] es os rfl))
    | announce =>
      simp only [step, Option.some.injEq] at ht; subst ht
      exact Or.inl (by simp only; omega)
    | resize v =>
      simp only [step, Option.some.injEq] at ht; subst ht
      by_cases hs : s.cseq = s.gseq
      · have : resize kind codim v s = s := by unfold resize; rw [if_neg (by simpa using hs)]
        rw [this]
        simpa using h
      · exact Or.inr (Or.inl (covered_resize hs v))
    | write k v =>
      have := ht
      simp only [step] at ht
      split_ifs at ht
      simp only [Option.some.injEq] at ht; subst ht
      rcases h with h | h | h
      · exact Or.inl h
      · refine Or.inr (Or.inl fun j hj => ?_)
        obtain ⟨x, hx⟩ := h j hj
        rcases kept_step this hx with ⟨y, _, hy⟩ | hy
        · exact ⟨y, hy⟩
        · exact ⟨x, hy⟩
      · exact Or.inr (Or.inr (by simpa using h))

theorem cseq_le_run {kind : Kind} {codim : ℕ} : ∀ (os : List (Op V)) (s s' : State V), s.cseq ≤ s.gseq →
    run kind codim s os = some s' → s'.cseq ≤ s'.gseq
  | [], s, s', hle, hr => by simp only [run, Option.some.injEq] at hr; subst hr; exact hle
  | o :: os, s, s', hle, hr => by
    rw [run, Option.bind_eq_some_iff] at hr
    obtain ⟨t, ht, hr⟩ := hr
    exact cseq_le_run os t s' (cseq_le_step ht hle) hr

/-- After a `resize` every entity of the grid has an entry, for every history in which each change of the grid is
followed by an increment of the sequence number, as in `adapt(handle)`.  Changes by `adapt()`
without a data handle: see `C120_unannounced_false`. -/
theorem C48_covered (kind : Kind) (codim : ℕ) (ents : List Key) (n : ℕ) (v w : V) (os : List (Op V))
    (ha : Announced os) (s : State V) (hr : run kind codim (construct ents n v) (os ++ [.resize w]) = some s) :
    Covered s := by
  rw [run_append, Option.bind_eq_some_iff] at hr
  obtain ⟨t, ht, hr⟩ := hr
  simp only [run, step, Option.bind_some, Option.some.injEq] at hr
  subst hr
  have hle : (construct ents (n : ℤ) v).cseq ≤ (construct ents (n : ℤ) v).gseq := by simp only [construct]; omega
  have hlt : (construct ents (n : ℤ) v).cseq < (construct ents (n : ℤ) v).gseq := by simp only [construct]; omega
  by_cases hs : t.cseq = t.gseq
  · have : resize kind codim w t = t := by unfold resize; rw [if_neg (by simpa using hs)]
    rw [this]
    rcases behind_or_covered os _ _ hle (Or.inl hlt) ha ht with h | h
    · omega
    · exact h
  · exact covered_resize hs w

/-- A bulk grid with two triangles is refined by `adapt(handle)` between accesses. -/
def sample : List (Op ℕ) :=
  [.resize 0, .write [0, 1, 2] 7, .modify [[1, 2, 3], [0, 2, 4], [0, 1, 4]], .announce]

example : Announced sample := by
  intro l es l' h
  unfold sample at h
  match l, h with
  | [], h => simp at h
  | [_], h => simp at h
  | [_, _], h => simp at h; simp [← h.2]
  | [_, _, _], h => simp at h
  | [_, _, _, _], h => simp at h
  | _ :: _ :: _ :: _ :: _ :: _, h => simp at h

example : (run (.bulk 2) 0 (construct [[0, 1, 2], [1, 2, 3]] 0 5) (sample ++ [.resize 9])).map
    (fun s => (read s [0, 1, 2], read s [1, 2, 3], read s [0, 1, 4], read s [5, 6, 7]))
    = some (some 7, some 5, some 9, none) := by decide +kernel

/-- Entries keep their values in every history that does not write to them, whatever happens to the grid. -/
theorem C48_kept (kind : Kind) (codim : ℕ) : ∀ (os : List (Op V)) (s s' : State V) (k : Key) (x : V),
    NoWrite k os → run kind codim s os = some s' → read s k = some x → read s' k = some x
  | [], s, s', k, x, _, hr, hx => by simp only [run, Option.some.injEq] at hr; subst hr; exact hx
  | o :: os, s, s', k, x, hw, hr, hx => by
    rw [run, Option.bind_eq_some_iff] at hr
    obtain ⟨t, ht, hr⟩ := hr
    refine C48_kept kind codim os t s' k x (fun y hy => hw y (List.mem_cons_of_mem _ hy)) hr ?_
    rcases kept_step ht hx with ⟨y, hy, _⟩ | h
    · exact absurd (by rw [hy]; exact List.mem_cons_self ..) (hw y)
    · exact h

/-- A value that was written is read until the next write to the same entity. -/
theorem C48_write (kind : Kind) (codim : ℕ) (s s' : State V) (k : Key) (x : V) (os : List (Op V)) (hw : NoWrite k os)
    (hr : run kind codim s (.write k x :: os) = some s') : read s' k = some x := by
  rw [run, Option.bind_eq_some_iff] at hr
  obtain ⟨t, ht, hr⟩ := hr
  refine C48_kept kind codim os t s' k x hw hr ?_
  simp only [step] at ht
  split_ifs at ht
  simp only [Option.some.injEq] at ht; subst ht
  simp [read, Map.find_set]

example : NoWrite (V := ℕ) [1, 2, 3] sample := by intro x; simp [sample]

/-- Resizing twice without a change of the grid in between does nothing. -/
theorem C48_twice (kind : Kind) (codim : ℕ) (v w : V) (s : State V) :
    resize kind codim w (resize kind codim v s) = resize kind codim v s := by
  have h : (resize kind codim v s).cseq = (resize kind codim v s).gseq := by
    unfold resize
    split_ifs with h
    · rfl
    · simpa using h
  generalize resize kind codim v s = t at h
  unfold resize
  rw [if_neg (by simpa using h)]

/-- What `resize` does after the sequence number has changed: old entries stay, entities without an entry get the
value, and nothing else but the ids of intermediate entities gets an entry. -/
theorem C48_resize (kind : Kind) (codim : ℕ) (v : V) (s : State V) (h : s.cseq ≠ s.gseq) (k : Key) :
    (∀ x, read s k = some x → read (resize kind codim v s) k = some x) ∧
    (read s k = none → k ∈ s.ents → read (resize kind codim v s) k = some v) ∧
    (read s k = none → k ∉ s.ents → k ∉ cachingIds kind codim → read (resize kind codim v s) k = none) := by
  unfold read
  rw [find_resize, if_pos h]
  refine ⟨fun x hx => by rw [hx]; rfl, fun h1 h2 => ?_, fun h1 h2 h3 => ?_⟩
  · rw [h1, if_pos (Or.inl h2)]; rfl
  · rw [h1, if_neg (by tauto)]; rfl

/-- C120 fails for changes by `adapt()` or `globalRefine()`: the sequence number stays, `resize` does nothing and the new
element has no entry. -/
theorem C120_unannounced_false : ∃ (ents : List Key) (os : List (Op ℕ)) (s : State ℕ),
    run (.bulk 2) 0 (construct ents 0 0) (os ++ [.resize 0]) = some s ∧ ¬ Covered s := by
  refine ⟨[[0, 1, 2]], [.resize 0, .modify [[0, 1, 3], [0, 2, 3], [1, 2, 3]]], _, rfl, ?_⟩
  intro h
  obtain ⟨x, hx⟩ := h [0, 1, 3] (by decide +kernel)
  exact absurd hx (by decide +revert +kernel)

/-! ## C65: intermediate and vanished elements during an adaptation -/

/-- After an adaptation with a data handle and a `resize` the values of the elements that vanished can still be read. -/
theorem C65_vanished (kind : Kind) (codim : ℕ) (s : State V) (es : List Key) (v : V) (k : Key) (x : V)
    (hx : read s k = some x) :
    ∃ s', run kind codim s [.modify es, .announce, .resize v] = some s' ∧ read s' k = some x := by
  refine ⟨_, rfl, ?_⟩
  exact C48_kept kind codim [.modify es, .announce, .resize v] s _ k x (by intro y; simp) rfl hx

/-- The ids of the sub-entities of an intermediate element have entries after an effective `resize` (two-dimensional
bulk grid; `codim` is 0, 1 or 2 and `i` a sub-entity number). -/
theorem C65_middle (codim i : ℕ) (hc : codim ≤ 2) (hi : i < (if codim = 0 then 1 else 3)) (v : V) (s : State V)
    (h : s.cseq ≠ s.gseq) : ∃ x, read (resize (.bulk 2) codim v s) (subIdMiddle i codim) = some x := by
  have hm : subIdMiddle i codim ∈ cachingIds (.bulk 2) codim := by
    have : codim = 0 ∨ codim = 1 ∨ codim = 2 := by omega
    rcases this with rfl | rfl | rfl
    · simp only [subIdMiddle]; decide +kernel
    · have : i = 0 ∨ i = 1 ∨ i = 2 := by simp at hi; omega
      rcases this with rfl | rfl | rfl <;> decide +kernel
    · have : i = 0 ∨ i = 1 ∨ i = 2 := by simp at hi; omega
      rcases this with rfl | rfl | rfl <;> decide +kernel
  unfold read
  rw [find_resize, if_pos h, if_pos (Or.inr hm)]
  cases Map.find s.data (subIdMiddle i codim) <;> simp

/-- The same for one-dimensional interface grids. -/
theorem C65_middle_interface (codim i : ℕ) (hc : codim ≤ 1) (hi : i < (if codim = 0 then 1 else 2)) (v : V)
    (s : State V) (h : s.cseq ≠ s.gseq) :
    ∃ x, read (resize (.interface 1) codim v s) (subIdMiddleInterface i codim) = some x := by
  have hm : subIdMiddleInterface i codim ∈ cachingIds (.interface 1) codim := by
    have : codim = 0 ∨ codim = 1 := by omega
    rcases this with rfl | rfl
    · simp only [subIdMiddleInterface]; decide +kernel
    · have : i = 0 ∨ i = 1 := by simp at hi; omega
      rcases this with rfl | rfl <;> decide +kernel
  unfold read
  rw [find_resize, if_pos h, if_pos (Or.inr hm)]
  cases Map.find s.data (subIdMiddleInterface i codim) <;> simp

/-- Sub-entities of one intermediate element are told apart. -/
theorem C65_distinct (codim i j : ℕ) (hc : 1 ≤ codim) (hi : i < 3) (hj : j < 3) :
    subIdMiddle i codim = subIdMiddle j codim ↔ i = j := by
  constructor
  · intro h
    match codim, hc with
    | 1, _ =>
      have h1 : i = 0 ∨ i = 1 ∨ i = 2 := by omega
      have h2 : j = 0 ∨ j = 1 ∨ j = 2 := by omega
      rcases h1 with rfl | rfl | rfl <;> rcases h2 with rfl | rfl | rfl <;>
        first | rfl | exact absurd h (by decide +kernel)
    | c + 2, _ =>
      simp only [subIdMiddle, List.cons.injEq, and_true, BitVec.add_right_inj] at h
      have := congrArg BitVec.toNat h
      simp only [BitVec.toNat_ofNat] at this
      omega
  · rintro rfl; rfl

/-- The entries of intermediate elements are not those of entities of the grid, as long as fewer than 2^64-4 vertex ids
were given (C03: ids count up from zero). -/
theorem C65_separate (kind : Kind) (codim : ℕ) (k : Key) (h : ∀ w ∈ k, w.toNat < 2 ^ 64 - 4) :
    k ∉ cachingIds kind codim := by
  intro hk
  have key : ∃ w ∈ k, w = -4 ∨ w = -3 ∨ w = (-2 : BitVec 64) := by
    cases kind <;> simp only [cachingIds, List.mem_append] at hk <;> rcases hk with hk | hk <;>
      try rcases hk with hk | hk
    all_goals
      split_ifs at hk
      all_goals
        try simp only [List.mem_cons, List.not_mem_nil, or_false] at hk
        try (rcases hk with rfl | rfl | rfl <;> exact ⟨_, List.mem_cons_self .., by simp⟩)
  obtain ⟨w, hw, rfl | rfl | rfl⟩ := key <;> simpa using h _ hw

example : ∀ w ∈ ([0, 1, 2] : Key), w.toNat < 2 ^ 64 - 4 := by
  simp

/-- A container that was constructed and never resized has no entries for intermediate elements. -/
theorem C126_unresized_false : ∃ (ents : List Key) (s : State ℕ), s = construct ents 0 0 ∧ Covered s ∧
    read s (subIdMiddle 0 0) = none := by
  refine ⟨[[0, 1, 2]], _, rfl, ?_, by decide +kernel⟩
  intro k hk
  simp only [construct, List.mem_singleton] at hk
  subst hk
  exact ⟨0, by decide +kernel⟩

/-! ## C66: which entries a container holds -/

/-- The ids that had a chance to get an entry in a history: the entities at the construction and at each `resize`. -/
def seen (es : List Key) : List (Op V) → List Key
  | [] => []
  | .modify es' :: os => seen es' os
  | .resize _ :: os => es ++ seen es os
  | _ :: os => seen es os

/-- Entries are never created for anything but entities that were in the grid at the construction or a `resize`, and
intermediate entities. -/
theorem C66_entries (kind : Kind) (codim : ℕ) : ∀ (os : List (Op V)) (s s' : State V) (k : Key),
    run kind codim s os = some s' → (∃ x, read s' k = some x) →
    (∃ x, read s k = some x) ∨ k ∈ seen s.ents os ∨ k ∈ cachingIds kind codim
  | [], s, s', k, hr, h => by simp only [run, Option.some.injEq] at hr; subst hr; exact Or.inl h
  | o :: os, s, s', k, hr, h => by
    rw [run, Option.bind_eq_some_iff] at hr
    obtain ⟨t, ht, hr⟩ := hr
    have ih := C66_entries kind codim os t s' k hr h
    cases o with
    | modify es => simp only [step, Option.some.injEq] at ht; subst ht; exact ih
    | announce => simp only [step, Option.some.injEq] at ht; subst ht; exact ih
    | resize v =>
      simp only [step, Option.some.injEq] at ht; subst ht
      have he : (resize kind codim v s).ents = s.ents := by unfold resize; split_ifs <;> rfl
      rw [he] at ih
      rcases ih with ⟨x, hx⟩ | ih | ih
      · unfold read at hx ⊢
        rw [find_resize] at hx
        split_ifs at hx with h1 h2
        · cases hf : Map.find s.data k with
          | some y => exact Or.inl ⟨y, rfl⟩
          | none =>
            rcases h2 with h2 | h2
            · exact Or.inr (Or.inl (List.mem_append_left _ h2))
            · exact Or.inr (Or.inr h2)
        · cases hf : Map.find s.data k with
          | some y => exact Or.inl ⟨y, rfl⟩
          | none => rw [hf] at hx; simp at hx
        · exact Or.inl ⟨x, hx⟩
      · exact Or.inr (Or.inl (List.mem_append_right _ ih))
      · exact Or.inr (Or.inr ih)
    | write j v =>
      simp only [step] at ht
      split_ifs at ht with hj
      simp only [Option.some.injEq] at ht; subst ht
      rcases ih with ⟨x, hx⟩ | ih | ih
      · unfold read at hx ⊢
        simp only [Map.find_set] at hx
        by_cases hk : k = j
        · subst hk
          exact Or.inl (Option.isSome_iff_exists.1 hj)
        · rw [if_neg hk] at hx; exact Or.inl ⟨x, hx⟩
      · exact Or.inr (Or.inl ih)
      · exact Or.inr (Or.inr ih)

/-- An entity that is new at a `resize` and was never in the grid at the construction or an earlier `resize` gets the
value passed to `resize`.  Entities that were in the grid before: see `C127_returned_false`. -/
theorem C66_new (kind : Kind) (codim : ℕ) (ents : List Key) (n : ℕ) (v w : V) (os : List (Op V)) (s : State V)
    (hr : run kind codim (construct ents n v) os = some s) (hseq : s.cseq ≠ s.gseq) (k : Key) (hk : k ∈ s.ents)
    (h0 : k ∉ ents) (hseen : k ∉ seen ents os) (hc : k ∉ cachingIds kind codim) :
    read (resize kind codim w s) k = some w := by
  refine (C48_resize kind codim w s hseq k).2.1 ?_ hk
  by_contra hne
  obtain ⟨x, hx⟩ := Option.ne_none_iff_exists'.1 hne
  rcases C66_entries kind codim os _ s k hr ⟨x, hx⟩ with ⟨y, hy⟩ | h | h
  · unfold read at hy
    simp only [construct, find_insertAll, Map.find_nil, Option.none_or, h0, if_false] at hy
    exact absurd hy (by simp)
  · exact hseen h
  · exact hc h

example : ∃ s, run (.bulk 2) 0 (construct [[0, 1, 2], [1, 2, 3]] 0 5) sample = some s ∧ s.cseq ≠ s.gseq ∧
    [0, 1, 4] ∈ s.ents ∧ [0, 1, 4] ∉ seen [[0, 1, 2], [1, 2, 3]] sample ∧ [0, 1, 4] ∉ cachingIds (.bulk 2) 0 := by
  refine ⟨_, rfl, ?_, ?_, ?_, ?_⟩ <;> decide +kernel

/-- The container never forgets: the entry of a removed element stays, and when an element with the same vertices comes
back (a flipped edge is flipped back) it has its former value and not the one passed to `resize`. -/
theorem C127_returned_false : ∃ (os : List (Op ℕ)) (s : State ℕ),
    run (.bulk 2) 0 (construct [[0, 1, 2], [1, 2, 3]] 0 0)
      [.resize 0, .write [0, 1, 2] 7, .modify [[0, 1, 3], [0, 2, 3]], .announce, .resize 0] = some s ∧
    [0, 1, 2] ∉ s.ents ∧ read s [0, 1, 2] = some 7 ∧
    (run (.bulk 2) 0 s (os ++ [.resize 1])).map (fun t => (t.ents, read t [0, 1, 2]))
      = some ([[0, 1, 2], [1, 2, 3]], some 7) := by
  refine ⟨[.modify [[0, 1, 2], [1, 2, 3]], .announce], _, rfl, ?_, ?_, ?_⟩ <;> decide +kernel

end Verif.Container
