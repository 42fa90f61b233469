import Mathlib.Data.List.Basic
import Mathlib.Data.List.Nodup

/-!
# Models of `std::map` / `std::unordered_map`

A map is a list of key/value pairs in some order. `insert` does not overwrite (as `std::map::insert`), `set` does
(as `m[k] = x`). Iteration visits the list; theorems about iteration should not depend on the order.
-/

namespace Verif.Map

variable {α β : Type*} [DecidableEq α]

/-- `m.find(k)` -/
def find (m : List (α × β)) (k : α) : Option β := (m.find? (fun e => e.1 = k)).map Prod.snd

/-- `m.insert({k, x})` -/
def insert (m : List (α × β)) (k : α) (x : β) : List (α × β) :=
  match find m k with
  | none => m ++ [(k, x)]
  | some _ => m

/-- `m.erase(k)` -/
def erase (m : List (α × β)) (k : α) : List (α × β) := m.filter (fun e => e.1 ≠ k)

/-- `m[k] = x` -/
def set (m : List (α × β)) (k : α) (x : β) : List (α × β) := erase m k ++ [(k, x)]

@[simp] theorem find_nil (k : α) : find ([] : List (α × β)) k = none := rfl

theorem find_eq_none {m : List (α × β)} {k : α} : find m k = none ↔ ∀ x, (k, x) ∉ m := by
  unfold find
  rw [Option.map_eq_none_iff, List.find?_eq_none]
  constructor
  · intro h x hx; simpa using h _ hx
  · rintro h ⟨j, x⟩ hx
    simp only [decide_eq_true_eq]
    rintro rfl
    exact h x hx

theorem find_cons (m : List (α × β)) (k j : α) (x : β) : find ((k, x) :: m) j = if k = j then some x else find m j := by
  unfold find
  rw [List.find?_cons]
  by_cases h : k = j <;> simp [h]

theorem find_append (m m' : List (α × β)) (k : α) : find (m ++ m') k = (find m k).or (find m' k) := by
  unfold find
  rw [List.find?_append]
  cases m.find? (fun e => decide (e.1 = k)) <;> simp

theorem mem_of_find {m : List (α × β)} {k : α} {x : β} (h : find m k = some x) : (k, x) ∈ m := by
  unfold find at h
  rw [Option.map_eq_some_iff] at h
  obtain ⟨⟨j, y⟩, h1, rfl⟩ := h
  have := List.find?_some h1
  simp only [decide_eq_true_eq] at this
  subst this
  exact List.mem_of_find?_eq_some h1

theorem find_isSome_iff {m : List (α × β)} {k : α} : (∃ x, find m k = some x) ↔ k ∈ m.map Prod.fst := by
  constructor
  · rintro ⟨x, h⟩; exact List.mem_map.2 ⟨(k, x), mem_of_find h, rfl⟩
  · intro h
    obtain ⟨⟨j, x⟩, h1, rfl⟩ := List.mem_map.1 h
    cases hf : find m j with
    | none => exact absurd h1 (find_eq_none.1 hf x)
    | some y => exact ⟨y, rfl⟩

theorem find_none_iff {m : List (α × β)} {k : α} : find m k = none ↔ k ∉ m.map Prod.fst := by
  rw [← find_isSome_iff]
  cases find m k <;> simp

theorem find_of_mem {m : List (α × β)} {k : α} {x : β} (hnd : (m.map Prod.fst).Nodup) (h : (k, x) ∈ m) :
    find m k = some x := by
  obtain ⟨y, hy⟩ := find_isSome_iff.2 (List.mem_map.2 ⟨(k, x), h, rfl⟩)
  have := (List.inj_on_of_nodup_map hnd) h (mem_of_find hy) rfl
  cases this
  exact hy

theorem mem_iff_find {m : List (α × β)} (hnd : (m.map Prod.fst).Nodup) {k : α} {x : β} :
    (k, x) ∈ m ↔ find m k = some x := ⟨find_of_mem hnd, mem_of_find⟩

theorem find_insert_new {m : List (α × β)} {k : α} {x : β} (h : find m k = none) (j : α) :
    find (insert m k x) j = if j = k then some x else find m j := by
  unfold insert
  rw [h]
  simp only
  rw [find_append]
  by_cases hj : j = k
  · subst hj; rw [h, find_cons]; simp
  · rw [find_cons, if_neg (fun e => hj e.symm), if_neg hj]; simp

theorem insert_old {m : List (α × β)} {k : α} {x y : β} (h : find m k = some y) : insert m k x = m := by
  unfold insert; rw [h]

theorem find_insert_ne {m : List (α × β)} {k j : α} {x : β} (h : j ≠ k) : find (insert m k x) j = find m j := by
  cases hk : find m k with
  | none => rw [find_insert_new hk, if_neg h]
  | some y => rw [insert_old hk]

theorem mem_keys_insert {m : List (α × β)} {k j : α} {x : β} :
    j ∈ (insert m k x).map Prod.fst ↔ j ∈ m.map Prod.fst ∨ j = k := by
  unfold insert
  cases hk : find m k with
  | none => simp
  | some y =>
    simp only
    constructor
    · exact Or.inl
    · rintro (h | rfl)
      · exact h
      · exact find_isSome_iff.1 ⟨y, hk⟩

theorem nodup_insert {m : List (α × β)} (hnd : (m.map Prod.fst).Nodup) (k : α) (x : β) :
    ((insert m k x).map Prod.fst).Nodup := by
  unfold insert
  cases hk : find m k with
  | none =>
    simp only
    rw [List.map_append]
    refine List.nodup_append.2 ⟨hnd, by simp, ?_⟩
    intro a ha b hb hab
    simp at hb
    subst hb; subst hab
    exact find_none_iff.1 hk ha
  | some y => exact hnd

theorem find_erase_self (m : List (α × β)) (k : α) : find (erase m k) k = none := by
  rw [find_eq_none]
  intro x hx
  have := (List.mem_filter.1 hx).2
  simp at this

theorem find_erase_ne {m : List (α × β)} {k j : α} (h : j ≠ k) : find (erase m k) j = find m j := by
  induction m with
  | nil => rfl
  | cons e m ih =>
    obtain ⟨a, x⟩ := e
    rw [erase, List.filter_cons]
    by_cases ha : a = k
    · subst ha
      simp only [ne_eq, not_true_eq_false, decide_false, Bool.false_eq_true, if_false]
      rw [find_cons, if_neg (fun e => h e.symm)]
      exact ih
    · simp only [ne_eq, ha, not_false_eq_true, decide_true, if_true]
      rw [find_cons, find_cons]
      have : find (m.filter fun e => decide (¬ e.1 = k)) j = find m j := ih
      rw [this]

theorem find_erase (m : List (α × β)) (k j : α) : find (erase m k) j = if j = k then none else find m j := by
  by_cases h : j = k
  · subst h; rw [find_erase_self, if_pos rfl]
  · rw [find_erase_ne h, if_neg h]

theorem nodup_erase {m : List (α × β)} (hnd : (m.map Prod.fst).Nodup) (k : α) : ((erase m k).map Prod.fst).Nodup :=
  List.Nodup.sublist (List.Sublist.map _ List.filter_sublist) hnd

theorem find_set (m : List (α × β)) (k j : α) (x : β) : find (set m k x) j = if j = k then some x else find m j := by
  unfold set
  rw [find_append, find_erase, find_cons, find_nil]
  by_cases h : j = k
  · subst h; simp
  · rw [if_neg h, if_neg (fun e => h e.symm), if_neg h]; simp

theorem nodup_set {m : List (α × β)} (hnd : (m.map Prod.fst).Nodup) (k : α) (x : β) :
    ((set m k x).map Prod.fst).Nodup := by
  unfold set
  rw [List.map_append]
  refine List.nodup_append.2 ⟨nodup_erase hnd k, by simp, ?_⟩
  intro a ha b hb hab
  simp at hb
  subst hb; subst hab
  obtain ⟨⟨a, y⟩, h1, rfl⟩ := List.mem_map.1 ha
  have := (List.mem_filter.1 h1).2
  simp at this

theorem mem_keys_erase {m : List (α × β)} {k j : α} : j ∈ (erase m k).map Prod.fst ↔ j ∈ m.map Prod.fst ∧ j ≠ k := by
  rw [← find_isSome_iff, ← find_isSome_iff, find_erase]
  by_cases h : j = k
  · simp [h]
  · simp [h]

end Verif.Map
