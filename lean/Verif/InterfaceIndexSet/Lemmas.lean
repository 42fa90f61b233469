import Verif.InterfaceIndexSet.Model
import Verif.IndexSet.Props
import Verif.Factory.SegProps
import Verif.Normals.Props

/-!
# Invariant of the index update of the interface grid
-/

namespace Verif.InterfaceIndexSet

open Verif RefElem IndexSet

/-- The interface elements: `d` different vertices each, no two with the same vertices. -/
structure Elements (d : Nat) (els : List (List Nat)) : Prop where
  length : ∀ e ∈ els, e.length = d
  nodup : ∀ e ∈ els, e.Nodup
  distinct : els.Pairwise fun e f => ¬ e.Perm f

theorem mapM_iff {α β : Type} (f : α → Option β) : ∀ (l : List α) (r : List β),
    l.mapM f = some r ↔ List.Forall₂ (fun a b => f a = some b) l r
  | [], r => by
    simp only [List.mapM_nil, Option.pure_def, Option.some.injEq]
    constructor
    · rintro rfl; exact .nil
    · intro h; cases h; rfl
  | a :: t, r => by
    simp only [List.mapM_cons, Option.bind_eq_bind, Option.bind_eq_some_iff, Option.pure_def, Option.some.injEq]
    constructor
    · rintro ⟨b, hb, t', ht, rfl⟩
      exact .cons hb ((mapM_iff f t t').1 ht)
    · intro h
      cases h with
      | cons hb ht => exact ⟨_, hb, _, (mapM_iff f t _).2 ht, rfl⟩

/-! ### vertices -/

/-- `vert` numbers the members of `S` by `0, ..., n-1`. -/
structure VI (S : Nat → Prop) (vert : List (Nat × Nat)) (n : Nat) : Prop where
  dom : ∀ v, (∃ i, Map.find vert v = some i) ↔ S v
  lt : ∀ v i, Map.find vert v = some i → i < n
  onto : ∀ i < n, ∃ v, Map.find vert v = some i
  inj : ∀ u v i, Map.find vert u = some i → Map.find vert v = some i → u = v

theorem addVertexIndex_spec {S : Nat → Prop} {s : State} (h : VI S s.vert s.vertexCount) (v : Nat) :
    ∃ vert' n', addVertexIndex s v = { s with vert := vert', vertexCount := n' } ∧
      VI (fun w => S w ∨ w = v) vert' n' ∧
      (∀ w i, Map.find s.vert w = some i → Map.find vert' w = some i) := by
  unfold addVertexIndex
  cases hf : Map.find s.vert v with
  | some i =>
    refine ⟨s.vert, s.vertexCount, rfl, ⟨?_, h.lt, h.onto, h.inj⟩, fun _ _ h => h⟩
    intro w
    rw [h.dom]
    constructor
    · exact Or.inl
    · rintro (hw | rfl)
      · exact hw
      · exact (h.dom _).1 ⟨i, hf⟩
  | none =>
    have hn := Map.find_insert_new (x := s.vertexCount) hf
    refine ⟨_, _, rfl, ⟨?_, ?_, ?_, ?_⟩, ?_⟩
    · intro w
      rw [hn]
      by_cases hw : w = v
      · simp [hw]
      · rw [if_neg hw, h.dom]; simp [hw]
    · intro w i
      rw [hn]
      by_cases hw : w = v
      · rw [if_pos hw]; intro he; cases he; omega
      · rw [if_neg hw]; intro he; have := h.lt _ _ he; omega
    · intro i hi
      rcases Nat.lt_succ_iff_lt_or_eq.1 hi with hi | rfl
      · obtain ⟨w, hw⟩ := h.onto i hi
        refine ⟨w, ?_⟩
        rw [hn, if_neg, hw]
        rintro rfl
        rw [hf] at hw; cases hw
      · exact ⟨v, by rw [hn, if_pos rfl]⟩
    · intro u w i
      rw [hn, hn]
      by_cases hu : u = v <;> by_cases hw : w = v
      · rw [hu, hw]; simp
      · rw [if_pos hu, if_neg hw]; intro he h2; cases he; have := h.lt _ _ h2; omega
      · rw [if_neg hu, if_pos hw]; intro h2 he; cases he; have := h.lt _ _ h2; omega
      · rw [if_neg hu, if_neg hw]; exact h.inj u w i
    · intro w i hw
      rw [hn, if_neg, hw]
      rintro rfl
      rw [hf] at hw; cases hw

/-- `ix` are the indices of the vertices `e`. -/
def Ixs (vert : List (Nat × Nat)) (e ix : List Nat) : Prop :=
  List.Forall₂ (fun v i => Map.find vert v = some i) e ix

theorem Ixs.mono {vert vert' : List (Nat × Nat)} (h : ∀ w i, Map.find vert w = some i → Map.find vert' w = some i)
    {e ix : List Nat} (hi : Ixs vert e ix) : Ixs vert' e ix := by
  unfold Ixs at *
  exact hi.imp (fun v i => h v i)

theorem Ixs.unique {vert : List (Nat × Nat)} {e ix ix' : List Nat} (h : Ixs vert e ix) (h' : Ixs vert e ix') :
    ix = ix' := by
  have a := (mapM_iff _ _ _).2 h
  rw [(mapM_iff _ _ _).2 h'] at a
  exact (Option.some.inj a).symm

theorem Ixs.mem_right {vert : List (Nat × Nat)} {e ix : List Nat} (h : Ixs vert e ix) {i : Nat} (hi : i ∈ ix) :
    ∃ v ∈ e, Map.find vert v = some i := by
  induction h with
  | nil => cases hi
  | cons hb _ ih =>
    rcases List.mem_cons.1 hi with rfl | hi
    · exact ⟨_, List.mem_cons_self .., hb⟩
    · obtain ⟨v, hv, h⟩ := ih hi
      exact ⟨v, List.mem_cons_of_mem _ hv, h⟩

theorem Ixs.mem_left {vert : List (Nat × Nat)} {e ix : List Nat} (h : Ixs vert e ix) {v : Nat} (hv : v ∈ e) :
    ∃ i ∈ ix, Map.find vert v = some i := by
  induction h with
  | nil => cases hv
  | cons hb _ ih =>
    rcases List.mem_cons.1 hv with rfl | hv
    · exact ⟨_, List.mem_cons_self .., hb⟩
    · obtain ⟨i, hi, h⟩ := ih hv
      exact ⟨i, List.mem_cons_of_mem _ hi, h⟩

theorem Ixs.nodup {S : Nat → Prop} {vert : List (Nat × Nat)} {n : Nat} (hV : VI S vert n) {e ix : List Nat}
    (h : Ixs vert e ix) (he : e.Nodup) : ix.Nodup := by
  induction h with
  | nil => exact List.nodup_nil
  | cons hb ht ih =>
    rename_i a b l₁ l₂
    rw [List.nodup_cons] at he ⊢
    refine ⟨?_, ih he.2⟩
    intro hm
    obtain ⟨v, hv, h2⟩ := Ixs.mem_right ht hm
    rw [hV.inj _ _ _ hb h2] at he
    exact he.1 hv

theorem Ixs.perm {S : Nat → Prop} {vert : List (Nat × Nat)} {n : Nat} (hV : VI S vert n) {e e' ix ix' : List Nat}
    (h : Ixs vert e ix) (h' : Ixs vert e' ix') (he : e.Nodup) (he' : e'.Nodup) : ix.Perm ix' ↔ e.Perm e' := by
  rw [List.perm_ext_iff_of_nodup (h.nodup hV he) (h'.nodup hV he'), List.perm_ext_iff_of_nodup he he']
  constructor
  · intro hp v
    constructor
    · intro hv
      obtain ⟨i, hi, hf⟩ := h.mem_left hv
      obtain ⟨w, hw, hf'⟩ := h'.mem_right ((hp i).1 hi)
      rwa [hV.inj _ _ _ hf hf']
    · intro hv
      obtain ⟨i, hi, hf⟩ := h'.mem_left hv
      obtain ⟨w, hw, hf'⟩ := h.mem_right ((hp i).2 hi)
      rwa [hV.inj _ _ _ hf hf']
  · intro hp i
    constructor
    · intro hi
      obtain ⟨v, hv, hf⟩ := h.mem_right hi
      obtain ⟨j, hj, hf'⟩ := h'.mem_left ((hp v).1 hv)
      rw [hf] at hf'; cases hf'; exact hj
    · intro hi
      obtain ⟨v, hv, hf⟩ := h'.mem_right hi
      obtain ⟨j, hj, hf'⟩ := h.mem_left ((hp v).2 hv)
      rw [hf] at hf'; cases hf'; exact hj

theorem Ixs.exists {S : Nat → Prop} {vert : List (Nat × Nat)} {n : Nat} (hV : VI S vert n) :
    ∀ {e : List Nat}, (∀ v ∈ e, S v) → ∃ ix, Ixs vert e ix
  | [], _ => ⟨[], .nil⟩
  | v :: e, h => by
    obtain ⟨i, hi⟩ := (hV.dom v).2 (h v (List.mem_cons_self ..))
    obtain ⟨ix, hix⟩ := Ixs.exists hV (e := e) (fun w hw => h w (List.mem_cons_of_mem _ hw))
    exact ⟨i :: ix, .cons hi hix⟩

/-! ### the two-level map -/

/-- The entry for key `k` and `x`. -/
def flat (m : List (List Nat × List (Nat × Nat))) (k : List Nat) (x : Nat) : Option Nat :=
  (Map.find m k).bind fun l => Map.find l x

/-- The inner maps have no key twice and are not empty. -/
def Inner (m : List (List Nat × List (Nat × Nat))) : Prop :=
  ∀ k l, Map.find m k = some l → (l.map Prod.fst).Nodup ∧ l ≠ []

theorem find_insertAt (m : List (List Nat × List (Nat × Nat))) (k k' : List Nat) (x c : Nat) :
    Map.find (insertAt m k x c) k' =
      if k' = k then some (Map.insert ((Map.find m k).getD []) x c) else Map.find m k' := by
  unfold insertAt
  cases hf : Map.find m k with
  | none => simp only [Map.find_set, Option.getD_none]
  | some l => simp only [Map.find_set, Option.getD_some]

theorem flat_insertAt (m : List (List Nat × List (Nat × Nat))) (k k' : List Nat) (x x' c c' : Nat) :
    flat (insertAt m k x c) k' x' = some c' ↔
      flat m k' x' = some c' ∨ (flat m k' x' = none ∧ k' = k ∧ x' = x ∧ c' = c) := by
  unfold flat
  rw [find_insertAt]
  by_cases hk : k' = k
  · subst hk
    rw [if_pos rfl]
    cases hf : Map.find m k' with
    | none =>
      simp only [Option.getD_none, Option.bind_some, Option.bind_none, reduceCtorEq, false_or, true_and]
      rw [Map.find_insert_new (Map.find_nil _)]
      by_cases hx : x' = x
      · simp [hx, eq_comm]
      · simp [hx]
    | some l =>
      simp only [Option.getD_some, Option.bind_some, true_and]
      by_cases hx : x' = x
      · subst hx
        cases hl : Map.find l x' with
        | none => rw [Map.find_insert_new hl]; simp [eq_comm]
        | some y => rw [Map.insert_old hl, hl]; simp
      · rw [Map.find_insert_ne hx]; simp [hx]
  · rw [if_neg hk]
    simp [hk]

theorem inner_insertAt {m : List (List Nat × List (Nat × Nat))} (h : Inner m) (k : List Nat) (x c : Nat) :
    Inner (insertAt m k x c) := by
  intro k' l hl
  rw [find_insertAt] at hl
  by_cases hk : k' = k
  · rw [if_pos hk] at hl
    cases hl
    constructor
    · apply Map.nodup_insert
      cases hf : Map.find m k with
      | none => simp
      | some l => exact (h k l hf).1
    · intro h0
      have : x ∈ (Map.insert ((Map.find m k).getD []) x c).map Prod.fst := Map.mem_keys_insert.2 (Or.inr rfl)
      rw [h0] at this
      cases this
  · rw [if_neg hk] at hl
    exact h k' l hl

theorem flat_insertAll (es : List (List Nat × Nat)) (c : Nat) : ∀ (m : List (List Nat × List (Nat × Nat))) (k x c'),
    flat (es.foldl (fun m p => insertAt m p.1 p.2 c) m) k x = some c' ↔
      flat m k x = some c' ∨ (flat m k x = none ∧ (k, x) ∈ es ∧ c' = c) := by
  induction es with
  | nil => simp
  | cons p es ih =>
    intro m k x c'
    rw [List.foldl_cons, ih, flat_insertAt]
    have hnone : flat (insertAt m p.1 p.2 c) k x = none ↔ flat m k x = none ∧ ¬ (k = p.1 ∧ x = p.2) := by
      constructor
      · intro h
        constructor
        · cases hf : flat m k x with
          | none => rfl
          | some y => rw [(flat_insertAt m p.1 k p.2 x c y).2 (Or.inl hf)] at h; cases h
        · rintro ⟨h1, h2⟩
          cases hf : flat m k x with
          | none => rw [(flat_insertAt m p.1 k p.2 x c c).2 (Or.inr ⟨hf, h1, h2, rfl⟩)] at h; cases h
          | some y => rw [(flat_insertAt m p.1 k p.2 x c y).2 (Or.inl hf)] at h; cases h
      · rintro ⟨h1, h2⟩
        cases hf : flat (insertAt m p.1 p.2 c) k x with
        | none => rfl
        | some y =>
          rcases (flat_insertAt m p.1 k p.2 x c y).1 hf with h | ⟨-, h, h', -⟩
          · rw [h1] at h; cases h
          · exact absurd ⟨h, h'⟩ h2
    rw [hnone, List.mem_cons]
    have hp : (k, x) = p ↔ k = p.1 ∧ x = p.2 := by
      constructor
      · rintro rfl; exact ⟨rfl, rfl⟩
      · rintro ⟨h1, h2⟩; exact Prod.ext h1 h2
    rw [hp]
    tauto

theorem inner_insertAll (es : List (List Nat × Nat)) (c : Nat) : ∀ {m : List (List Nat × List (Nat × Nat))},
    Inner m → Inner (es.foldl (fun m p => insertAt m p.1 p.2 c) m) := by
  induction es with
  | nil => intro m h; exact h
  | cons p es ih => intro m h; exact ih (inner_insertAt h _ _ _)

/-! ### edges -/

/-- `edge` numbers the members of `S` by `0, ..., n-1`. -/
structure EI (S : List Nat → Prop) (edge : List (List Nat × Nat)) (n : Nat) : Prop where
  dom : ∀ k, (∃ i, Map.find edge k = some i) ↔ S k
  lt : ∀ k i, Map.find edge k = some i → i < n
  onto : ∀ i < n, ∃ k, Map.find edge k = some i
  inj : ∀ k l i, Map.find edge k = some i → Map.find edge l = some i → k = l

theorem addEdge_spec {S : List Nat → Prop} {s : State} (h : EI S s.edge s.edgeCount) (a b : Nat) :
    ∃ edge' n', addEdge s a b = { s with edge := edge', edgeCount := n' } ∧
      EI (fun k => S k ∨ k = sortIds [a, b]) edge' n' := by
  unfold addEdge
  simp only
  generalize hk : sortIds [a, b] = v
  cases hf : Map.find s.edge v with
  | some i =>
    refine ⟨s.edge, s.edgeCount, rfl, ⟨?_, h.lt, h.onto, h.inj⟩⟩
    intro w
    rw [h.dom]
    constructor
    · exact Or.inl
    · rintro (hw | rfl)
      · exact hw
      · exact (h.dom _).1 ⟨i, hf⟩
  | none =>
    have hn := Map.find_insert_new (x := s.edgeCount) hf
    refine ⟨_, _, rfl, ⟨?_, ?_, ?_, ?_⟩⟩
    · intro w
      rw [hn]
      by_cases hw : w = v
      · simp [hw]
      · rw [if_neg hw, h.dom]; simp [hw]
    · intro w i
      rw [hn]
      by_cases hw : w = v
      · rw [if_pos hw]; intro he; cases he; omega
      · rw [if_neg hw]; intro he; have := h.lt _ _ he; omega
    · intro i hi
      rcases Nat.lt_succ_iff_lt_or_eq.1 hi with hi | rfl
      · obtain ⟨w, hw⟩ := h.onto i hi
        refine ⟨w, ?_⟩
        rw [hn, if_neg, hw]
        rintro rfl
        rw [hf] at hw; cases hw
      · exact ⟨v, by rw [hn, if_pos rfl]⟩
    · intro u w i
      rw [hn, hn]
      by_cases hu : u = v <;> by_cases hw : w = v
      · rw [hu, hw]; simp
      · rw [if_pos hu, if_neg hw]; intro he h2; cases he; have := h.lt _ _ h2; omega
      · rw [if_neg hu, if_pos hw]; intro h2 he; cases he; have := h.lt _ _ h2; omega
      · rw [if_neg hu, if_neg hw]; exact h.inj u w i

/-! ### the entries of one element -/

theorem entries2 {i0 i1 : Nat} (h : [i0, i1].Nodup) (k : List Nat) (x : Nat) :
    (k, x) ∈ [([i0], i1), ([i1], i0)] ↔ k.Pairwise (· < ·) ∧ (x :: k).Perm [i0, i1] := by
  simp only [List.mem_cons, List.not_mem_nil, or_false, Prod.mk.injEq]
  constructor
  · rintro (⟨rfl, rfl⟩ | ⟨rfl, rfl⟩)
    · exact ⟨by simp, List.Perm.swap ..⟩
    · exact ⟨by simp, List.Perm.refl _⟩
  · rintro ⟨-, hp⟩
    have hl := hp.length_eq
    match k, hl with
    | [y], _ => rcases Normals.perm2 hp with ⟨rfl, rfl⟩ | ⟨rfl, rfl⟩ <;> simp

theorem entries3 {a b c : Nat} (h1 : a < b) (h2 : b < c) (k : List Nat) (x : Nat) :
    (k, x) ∈ [([a, b], c), ([b, c], a), ([a, c], b)] ↔ k.Pairwise (· < ·) ∧ (x :: k).Perm [a, b, c] := by
  simp only [List.mem_cons, List.not_mem_nil, or_false, Prod.mk.injEq]
  constructor
  · rintro (⟨rfl, rfl⟩ | ⟨rfl, rfl⟩ | ⟨rfl, rfl⟩)
    · refine ⟨by simp; omega, ?_⟩
      exact (List.Perm.swap a x [b]).trans ((List.Perm.swap b x []).cons a)
    · exact ⟨by simp; omega, List.Perm.refl _⟩
    · exact ⟨by simp; omega, List.Perm.swap ..⟩
  · rintro ⟨hs, hp⟩
    have hl := hp.length_eq
    match k, hl with
    | [y, z], _ =>
      have hyz : y < z := by simpa using hs
      rcases Normals.perm3 hp with ⟨rfl, rfl, rfl⟩ | ⟨rfl, rfl, rfl⟩ | ⟨rfl, rfl, rfl⟩ | ⟨rfl, rfl, rfl⟩ |
        ⟨rfl, rfl, rfl⟩ | ⟨rfl, rfl, rfl⟩ <;> first | omega | simp

/-! ### the invariant -/

/-- What the maps contain after the elements `els` were visited. -/
structure Inv (d : Nat) (els : List (List Nat)) (s : State) : Prop where
  vert : VI (fun v => ∃ e ∈ els, v ∈ e) s.vert s.vertexCount
  count : s.elementCount = els.length
  index : ∀ k x c, flat s.index k x = some c ↔
    ∃ e ix, els[c]? = some e ∧ Ixs s.vert e ix ∧ k.Pairwise (· < ·) ∧ (x :: k).Perm ix
  inner : Inner s.index
  edge : d = 3 → EI (fun k => ∃ e ∈ els, ∃ ix, Ixs s.vert e ix ∧ k.length = 2 ∧ k.Pairwise (· < ·) ∧ k ⊆ ix) s.edge s.edgeCount

theorem inv_empty (d : Nat) : Inv d [] {} where
  vert := ⟨by simp, by simp, by simp, by simp⟩
  count := rfl
  index := by simp [flat]
  inner := by intro k l h; simp at h
  edge := fun _ => ⟨by simp, by simp, by simp, by simp⟩

/-- Putting the pieces of one pass together. -/
theorem inv_step {d : Nat} {els : List (List Nat)} {s s' : State} (h : Inv d els s) {e ix : List Nat} (he : e.Nodup)
    (hnd : ∀ f ∈ els, f.Nodup)
    (hnew : ∀ f ∈ els, ¬ f.Perm e) (hV : VI (fun v => (∃ f ∈ els, v ∈ f) ∨ v ∈ e) s'.vert s'.vertexCount)
    (hmono : ∀ w i, Map.find s.vert w = some i → Map.find s'.vert w = some i) (hix : Ixs s'.vert e ix)
    (es : List (List Nat × Nat)) (hes : ∀ k x, (k, x) ∈ es ↔ k.Pairwise (· < ·) ∧ (x :: k).Perm ix)
    (hidx : s'.index = es.foldl (fun m p => insertAt m p.1 p.2 s.elementCount) s.index)
    (hcount : s'.elementCount = s.elementCount + 1)
    (hedge : d = 3 → EI (fun k => (∃ e ∈ els, ∃ ix, Ixs s'.vert e ix ∧ k.length = 2 ∧ k.Pairwise (· < ·) ∧ k ⊆ ix) ∨
      (k.length = 2 ∧ k.Pairwise (· < ·) ∧ k ⊆ ix)) s'.edge s'.edgeCount) : Inv d (els ++ [e]) s' := by
  have hmem : ∀ v, (∃ f ∈ els ++ [e], v ∈ f) ↔ (∃ f ∈ els, v ∈ f) ∨ v ∈ e := by
    intro v
    constructor
    · rintro ⟨f, hf, hv⟩
      rcases List.mem_append.1 hf with hf | hf
      · exact Or.inl ⟨f, hf, hv⟩
      · simp only [List.mem_singleton] at hf; subst hf; exact Or.inr hv
    · rintro (⟨f, hf, hv⟩ | hv)
      · exact ⟨f, List.mem_append_left _ hf, hv⟩
      · exact ⟨e, by simp, hv⟩
  -- entries of older elements, seen through the new vertex map
  have hold : ∀ k x c, flat s.index k x = some c ↔
      ∃ f ix, els[c]? = some f ∧ Ixs s'.vert f ix ∧ k.Pairwise (· < ·) ∧ (x :: k).Perm ix := by
    intro k x c
    rw [h.index]
    constructor
    · rintro ⟨f, ix, hf, hi, h1, h2⟩; exact ⟨f, ix, hf, hi.mono hmono, h1, h2⟩
    · rintro ⟨f, ix, hf, hi, h1, h2⟩
      obtain ⟨ix', hi'⟩ := Ixs.exists h.vert (e := f) (fun v hv => ⟨f, List.mem_of_getElem? hf, hv⟩)
      rw [(hi'.mono hmono).unique hi] at hi'
      exact ⟨f, ix, hf, hi', h1, h2⟩
  refine ⟨?_, ?_, ?_, ?_, ?_⟩
  · refine ⟨fun v => ?_, hV.lt, hV.onto, hV.inj⟩
    rw [hV.dom, hmem]
  · rw [hcount, h.count]; simp
  · intro k x c
    rw [hidx, flat_insertAll, hes]
    constructor
    · rintro (h1 | ⟨h1, ⟨h2, h3⟩, rfl⟩)
      · obtain ⟨f, ix, hf, hr⟩ := (hold _ _ _).1 h1
        exact ⟨f, ix, by rw [List.getElem?_append_left (List.getElem?_eq_some_iff.1 hf).1]; exact hf, hr⟩
      · exact ⟨e, ix, by rw [h.count]; simp, hix, h2, h3⟩
    · rintro ⟨f, ix', hf, hi, h1, h2⟩
      rcases Nat.lt_or_ge c els.length with hc | hc
      · left
        rw [List.getElem?_append_left hc] at hf
        exact (hold _ _ _).2 ⟨f, ix', hf, hi, h1, h2⟩
      · right
        rw [List.getElem?_append_right hc] at hf
        have hc0 : c - els.length = 0 := by
          have := (List.getElem?_eq_some_iff.1 hf).1
          simpa using this
        rw [hc0] at hf
        simp only [List.getElem?_cons_zero, Option.some.injEq] at hf
        subst hf
        rw [hi.unique hix] at h2
        refine ⟨?_, ⟨h1, h2⟩, by rw [h.count]; omega⟩
        cases hfl : flat s.index k x with
        | none => rfl
        | some y =>
          obtain ⟨f, jx, hf, hj, -, h4⟩ := (hold _ _ _).1 hfl
          have hfm := List.mem_of_getElem? hf
          exact absurd ((hj.perm hV hix (hnd f hfm) he).1 (h4.symm.trans h2)) (hnew f hfm)
  · rw [hidx]; exact inner_insertAll _ _ h.inner
  · intro hd
    have hE := hedge hd
    refine ⟨fun k => ?_, hE.lt, hE.onto, hE.inj⟩
    rw [hE.dom]
    constructor
    · rintro (⟨f, hf, hr⟩ | hr)
      · exact ⟨f, List.mem_append_left _ hf, hr⟩
      · exact ⟨e, by simp, ix, hix, hr⟩
    · rintro ⟨f, hf, jx, hj, hr⟩
      rcases List.mem_append.1 hf with hf | hf
      · exact Or.inl ⟨f, hf, jx, hj, hr⟩
      · simp only [List.mem_singleton] at hf
        subst hf
        rw [hj.unique hix] at hr
        exact Or.inr hr

theorem step2_spec {els : List (List Nat)} {s : State} (h : Inv 2 els s) {e : List Nat} (hl : e.length = 2)
    (he : e.Nodup) (hnd : ∀ f ∈ els, f.Nodup) (hnew : ∀ f ∈ els, ¬ f.Perm e) :
    ∃ s', step2 s e = some s' ∧ Inv 2 (els ++ [e]) s' := by
  match e, hl with
  | [u, v], _ =>
    obtain ⟨V1, n1, e1, hV1, m1⟩ := addVertexIndex_spec h.vert u
    obtain ⟨V2, n2, e2, hV2, m2⟩ := addVertexIndex_spec (s := { s with vert := V1, vertexCount := n1 }) hV1 v
    have hmono : ∀ w i, Map.find s.vert w = some i → Map.find V2 w = some i := fun w i hw => m2 w i (m1 w i hw)
    obtain ⟨i0, h0⟩ := (hV2.dom u).2 (by simp)
    obtain ⟨i1, h1⟩ := (hV2.dom v).2 (by simp)
    have hix : Ixs V2 [u, v] [i0, i1] := .cons h0 (.cons h1 .nil)
    refine ⟨{ s with
      vert := V2, vertexCount := n2
      index := [([i0], i1), ([i1], i0)].foldl (fun m p => insertAt m p.1 p.2 s.elementCount) s.index
      elementCount := s.elementCount + 1 }, ?_, ?_⟩
    · unfold step2
      simp only [e1, e2, h0, h1, Option.bind_eq_bind, Option.bind_some, Option.pure_def]
      rfl
    · refine inv_step h he hnd hnew ?_ hmono hix _ (entries2 (hix.nodup hV2 he)) (by rfl) rfl (by simp)
      refine ⟨fun w => ?_, hV2.lt, hV2.onto, hV2.inj⟩
      rw [hV2.dom]
      simp only [List.mem_cons, List.not_mem_nil, or_false, or_assoc]

theorem step3_spec {els : List (List Nat)} {s : State} (h : Inv 3 els s) {e : List Nat} (hl : e.length = 3)
    (he : e.Nodup) (hnd : ∀ f ∈ els, f.Nodup) (hnew : ∀ f ∈ els, ¬ f.Perm e) :
    ∃ s', step3 s e = some s' ∧ Inv 3 (els ++ [e]) s' := by
  match e, hl with
  | [u, v, w], _ =>
    obtain ⟨V1, n1, e1, hV1, m1⟩ := addVertexIndex_spec h.vert u
    obtain ⟨V2, n2, e2, hV2, m2⟩ := addVertexIndex_spec (s := { s with vert := V1, vertexCount := n1 }) hV1 v
    obtain ⟨V3, n3, e3, hV3, m3⟩ := addVertexIndex_spec (s := { s with vert := V2, vertexCount := n2 }) hV2 w
    have hmono : ∀ x i, Map.find s.vert x = some i → Map.find V3 x = some i :=
      fun x i hw => m3 x i (m2 x i (m1 x i hw))
    obtain ⟨i0, h0⟩ := (hV1.dom u).2 (by simp)
    obtain ⟨i1, h1⟩ := (hV2.dom v).2 (by simp)
    obtain ⟨i2, h2⟩ := (hV3.dom w).2 (by simp)
    have hix : Ixs V3 [u, v, w] [i0, i1, i2] := .cons (m3 _ _ (m2 _ _ h0)) (.cons (m3 _ _ h1) (.cons h2 .nil))
    have hnodup := hix.nodup hV3 he
    obtain ⟨a, b, c, hs⟩ : ∃ a b c, sortIds [i0, i1, i2] = [a, b, c] := by
      have := (sortIds_perm [i0, i1, i2]).length_eq
      match sortIds [i0, i1, i2], this with
      | [a, b, c], _ => exact ⟨a, b, c, rfl⟩
    have hst := sortIds_strict hnodup
    have hpm := sortIds_perm [i0, i1, i2]
    rw [hs] at hst hpm
    have hab : a < b := by simp at hst; omega
    have hbc : b < c := by simp at hst; omega
    let s3 : State := { s with
      vert := V3, vertexCount := n3
      index := [([a, b], c), ([b, c], a), ([a, c], b)].foldl (fun m p => insertAt m p.1 p.2 s.elementCount) s.index
      elementCount := s.elementCount + 1 }
    have hE := h.edge rfl
    obtain ⟨E1, k1, f1, g1⟩ := addEdge_spec (s := s3) hE a b
    obtain ⟨E2, k2, f2, g2⟩ := addEdge_spec (s := { s3 with edge := E1, edgeCount := k1 }) g1 b c
    obtain ⟨E3, k3, f3, g3⟩ := addEdge_spec (s := { s3 with edge := E2, edgeCount := k2 }) g2 c a
    refine ⟨{ s3 with edge := E3, edgeCount := k3 }, ?_, ?_⟩
    · unfold step3
      simp only [e1, e2, e3, h0, h1, h2, Option.bind_eq_bind, Option.bind_some, Option.pure_def, hs]
      have : ({ s with
        vert := V3, vertexCount := n3
        index := insertAt (insertAt (insertAt s.index [a, b] c s.elementCount) [b, c] a s.elementCount) [a, c] b
          s.elementCount
        elementCount := s.elementCount + 1 } : State) = s3 := rfl
      rw [this, f1, f2, f3]
    · refine inv_step h he hnd hnew ?_ hmono hix _ (fun k x => ?_) rfl rfl ?_
      · refine ⟨fun x => ?_, hV3.lt, hV3.onto, hV3.inj⟩
        rw [hV3.dom]
        simp only [List.mem_cons, List.not_mem_nil, or_false, or_assoc]
      · rw [entries3 hab hbc]
        constructor
        · rintro ⟨p, q⟩; exact ⟨p, q.trans hpm⟩
        · rintro ⟨p, q⟩; exact ⟨p, q.trans hpm.symm⟩
      · intro _
        refine ⟨fun k => ?_, g3.lt, g3.onto, g3.inj⟩
        rw [g3.dom]
        have hsab : sortIds [a, b] = [a, b] := sortIds_of_strict (by simpa using hab)
        have hsbc : sortIds [b, c] = [b, c] := sortIds_of_strict (by simpa using hbc)
        have hsca : sortIds [c, a] = [a, c] := by
          rw [← sortIds_of_strict (l := [a, c]) (by simp; omega)]
          exact (Segments.sort_eq_iff _ _).2 (List.Perm.swap ..)
        rw [hsab, hsbc, hsca]
        have hnewk : (k.length = 2 ∧ k.Pairwise (· < ·) ∧ k ⊆ [i0, i1, i2]) ↔ (k = [a, b] ∨ k = [b, c] ∨ k = [a, c]) := by
          have hsub : k ⊆ [i0, i1, i2] ↔ k ⊆ [a, b, c] :=
            ⟨fun hh x hx => hpm.symm.subset (hh hx), fun hh x hx => hpm.subset (hh hx)⟩
          rw [hsub]
          constructor
          · rintro ⟨hl, hp, hsb⟩
            match k, hl with
            | [y, z], _ =>
              have hyz : y < z := by simpa using hp
              have hy : y ∈ [a, b, c] := hsb (by simp)
              have hz : z ∈ [a, b, c] := hsb (by simp)
              simp only [List.mem_cons, List.not_mem_nil, or_false] at hy hz
              rcases hy with rfl | rfl | rfl <;> rcases hz with rfl | rfl | rfl <;> first | omega | simp
          · rintro (rfl | rfl | rfl)
            · exact ⟨rfl, by simpa using hab, by simp⟩
            · exact ⟨rfl, by simpa using hbc, by simp⟩
            · exact ⟨rfl, by simp; omega, by simp⟩
        rw [hnewk]
        have hold : (∃ e ∈ els, ∃ ix, Ixs s.vert e ix ∧ k.length = 2 ∧ k.Pairwise (· < ·) ∧ k ⊆ ix) ↔
            (∃ e ∈ els, ∃ ix, Ixs V3 e ix ∧ k.length = 2 ∧ k.Pairwise (· < ·) ∧ k ⊆ ix) := by
          constructor
          · rintro ⟨f, hf, ix, hi, hr⟩; exact ⟨f, hf, ix, hi.mono hmono, hr⟩
          · rintro ⟨f, hf, ix, hi, hr⟩
            obtain ⟨ix', hi'⟩ := Ixs.exists h.vert (e := f) (fun v hv => ⟨f, hf, hv⟩)
            rw [(hi'.mono hmono).unique hi] at hi'
            exact ⟨f, hf, ix, hi', hr⟩
        rw [hold, or_assoc, or_assoc]

/-- The update never fails and establishes the invariant. -/
theorem update_inv {d : Nat} (hd : d = 2 ∨ d = 3) (els : List (List Nat)) (hE : Elements d els) :
    ∃ s, update d els = some s ∧ Inv d els s := by
  induction els using List.reverseRecOn with
  | nil => exact ⟨{}, rfl, inv_empty d⟩
  | append_singleton els e ih =>
    have hdist := List.pairwise_append.1 hE.distinct
    obtain ⟨s, hs, hinv⟩ := ih ⟨fun f hf => hE.length f (List.mem_append_left _ hf),
      fun f hf => hE.nodup f (List.mem_append_left _ hf), hdist.1⟩
    have hlen := hE.length e (by simp)
    have hnd := hE.nodup e (by simp)
    have hnds : ∀ f ∈ els, f.Nodup := fun f hf => hE.nodup f (List.mem_append_left _ hf)
    have hnew : ∀ f ∈ els, ¬ f.Perm e := fun f hf => hdist.2.2 f hf e (by simp)
    have hupd : update d (els ++ [e]) = step d s e := by
      unfold update at hs ⊢
      rw [List.foldlM_append, hs]
      simp
    rw [hupd]
    rcases hd with rfl | rfl
    · exact step2_spec hinv hlen hnd hnds hnew
    · exact step3_spec hinv hlen hnd hnds hnew

end Verif.InterfaceIndexSet
