import Mathlib.Data.List.Induction
import Mathlib.Tactic.Tauto
import Verif.Parallel.Model

/-!
# What `computePartitions` computes
-/

namespace Verif.Parallel

theorem mem_add {l : List Nat} {r x : Nat} : x ∈ add l r ↔ x ∈ l ∨ x = r := by
  unfold add
  split
  · exact ⟨Or.inl, fun h => h.elim id (fun h => h ▸ by assumption)⟩
  · simp

theorem set_eq {α : Type} {f : Nat → α} {a : Nat} {b : α} {x : Nat} (h : x = a) : set f a b x = b := by simp [set, h]
theorem set_ne {α : Type} {f : Nat → α} {a : Nat} {b : α} {x : Nat} (h : x ≠ a) : set f a b x = f x := by simp [set, h]

/-- Two cells on the two sides of one of the facets. -/
def AdjIn (fs : List (Nat × Option Nat)) (c d : Nat) : Prop := (c, some d) ∈ fs ∨ (d, some c) ∈ fs

theorem AdjIn.symm {fs} {c d : Nat} (h : AdjIn fs c d) : AdjIn fs d c := Or.symm h

theorem adjIn_append {fs : List (Nat × Option Nat)} {f : Nat × Option Nat} {c d : Nat} :
    AdjIn (fs ++ [f]) c d ↔ AdjIn fs c d ∨ (f = (c, some d) ∨ f = (d, some c)) := by
  unfold AdjIn
  simp only [List.mem_append, List.mem_singleton]
  constructor
  · rintro ((h | h) | (h | h))
    · exact Or.inl (Or.inl h)
    · exact Or.inr (Or.inl h.symm)
    · exact Or.inl (Or.inr h)
    · exact Or.inr (Or.inr h.symm)
  · rintro ((h | h) | (h | h))
    · exact Or.inl (Or.inl h)
    · exact Or.inr (Or.inl h)
    · exact Or.inl (Or.inr h.symm)
    · exact Or.inr (Or.inr h.symm)

/-- State after the facets `fs`. -/
structure BulkInv (m : Mesh) (me : Nat) (fs : List (Nat × Option Nat)) (s : Part) : Prop where
  own : ∀ c, m.rank c = me → s.part c = 0
  other : ∀ c, m.rank c ≠ me → s.part c = 2 ∨ s.part c = -1
  ghost : ∀ c, m.rank c ≠ me → (s.part c = 2 ↔ ∃ d, AdjIn fs c d ∧ m.rank d = me)
  conn : ∀ c r, r ∈ s.conn c ↔ ∃ d, AdjIn fs c d ∧ m.rank d = r ∧ m.rank c ≠ r ∧ (m.rank c = me ∨ r = me)
  links : ∀ r, r ∈ s.links ↔ ∃ c d, AdjIn fs c d ∧ m.rank c = me ∧ m.rank d = r ∧ r ≠ me
  irest : s.ipart = (fun _ => -1) ∧ s.iconn = (fun _ => []) ∧ s.jpart = []

theorem bulk_inv_step {m : Mesh} {me : Nat} {fs : List (Nat × Option Nat)} {s : Part} (h : BulkInv m me fs s)
    (f : Nat × Option Nat) : BulkInv m me (fs ++ [f]) (facetOne m s f) := by
  obtain ⟨a, o⟩ := f
  have zero_iff : ∀ c, s.part c = 0 ↔ m.rank c = me := by
    intro c
    constructor
    · intro hz
      by_contra hne
      rcases h.other c hne with h1 | h1 <;> omega
    · exact h.own c
  cases o with
  | none =>
    have hadj : ∀ c d, AdjIn (fs ++ [(a, none)]) c d ↔ AdjIn fs c d := by
      intro c d
      rw [adjIn_append]
      simp
    have hs : facetOne m s (a, none) = s := rfl
    rw [hs]
    exact ⟨h.own, h.other, by simpa only [hadj] using h.ghost, by simpa only [hadj] using h.conn,
      by simpa only [hadj] using h.links, h.irest⟩
  | some b =>
    have hadj : ∀ c d, AdjIn (fs ++ [(a, some b)]) c d ↔ AdjIn fs c d ∨ (a = c ∧ b = d) ∨ (a = d ∧ b = c) := by
      intro c d
      rw [adjIn_append]
      simp
    simp only [facetOne, ne_eq, zero_iff]
    split
    · rename_i hc
      have hne : m.rank a ≠ m.rank b := by
        rcases hc with ⟨h1, h2⟩ | ⟨h1, h2⟩
        · rw [h1]; exact fun h => h2 h.symm
        · rw [h2]; exact h1
      have hab : a ≠ b := fun h => hne (h ▸ rfl)
      -- the ghost and the other side
      obtain ⟨g, i, hg, hi, hset, hgi⟩ : ∃ g i, m.rank g ≠ me ∧ m.rank i = me ∧
          (if m.rank a = me then b else a) = g ∧ ((g = a ∧ i = b) ∨ (g = b ∧ i = a)) := by
        rcases hc with ⟨h1, h2⟩ | ⟨h1, h2⟩
        · exact ⟨b, a, h2, h1, by simp [h1], Or.inr ⟨rfl, rfl⟩⟩
        · exact ⟨a, b, h1, h2, by simp [h1], Or.inl ⟨rfl, rfl⟩⟩
      simp only [hset]
      have hpart : ∀ c, set s.part g 2 c = 0 ↔ m.rank c = me := by
        intro c
        by_cases hcg : c = g
        · rw [set_eq hcg]
          constructor
          · intro h; omega
          · intro h'; exact absurd (hcg ▸ h') hg
        · rw [set_ne hcg, zero_iff]
      simp only [addConn, hpart]
      constructor
      · intro c hr
        exact (hpart c).2 hr
      · intro c hr
        by_cases hcg : c = g
        · left; exact set_eq hcg
        · simp only [set_ne hcg]; exact h.other c hr
      · intro c hr
        simp only [hadj]
        by_cases hcg : c = g
        · simp only [set_eq hcg, true_iff]
          refine ⟨i, Or.inr ?_, hi⟩
          rcases hgi with ⟨h1, h2⟩ | ⟨h1, h2⟩
          · exact Or.inl ⟨by rw [hcg, h1], h2.symm⟩
          · exact Or.inr ⟨h2.symm, by rw [hcg, h1]⟩
        · simp only [set_ne hcg]
          rw [h.ghost c hr]
          constructor
          · rintro ⟨d, h1, h2⟩
            exact ⟨d, Or.inl h1, h2⟩
          · rintro ⟨d, h1 | ⟨h1, h2⟩ | ⟨h1, h2⟩, h3⟩
            · exact ⟨d, h1, h3⟩
            · exfalso
              rcases hgi with ⟨h4, h5⟩ | ⟨h4, h5⟩
              · exact hcg (by rw [← h1, h4])
              · exact hr (by rw [← h1, ← h5, hi])
            · exfalso
              rcases hgi with ⟨h4, h5⟩ | ⟨h4, h5⟩
              · exact hr (by rw [← h2, ← h5, hi])
              · exact hcg (by rw [← h2, h4])
      · intro c r
        simp only [hadj]
        have key : r ∈ set (set s.conn a (add (s.conn a) (m.rank b))) b
              (add (set s.conn a (add (s.conn a) (m.rank b)) b) (m.rank a)) c ↔
            r ∈ s.conn c ∨ (c = a ∧ r = m.rank b) ∨ (c = b ∧ r = m.rank a) := by
          by_cases hcb : c = b
          · rw [set_eq hcb, set_ne (fun h => hab h.symm), mem_add, hcb]
            constructor
            · rintro (h1 | h1)
              · exact Or.inl h1
              · exact Or.inr (Or.inr ⟨rfl, h1⟩)
            · rintro (h1 | ⟨h1, h2⟩ | ⟨_, h1⟩)
              · exact Or.inl h1
              · exact absurd h1.symm hab
              · exact Or.inr h1
          · rw [set_ne hcb]
            by_cases hca : c = a
            · rw [set_eq hca, mem_add, hca]
              constructor
              · rintro (h1 | h1)
                · exact Or.inl h1
                · exact Or.inr (Or.inl ⟨rfl, h1⟩)
              · rintro (h1 | ⟨_, h1⟩ | ⟨h1, _⟩)
                · exact Or.inl h1
                · exact Or.inr h1
                · exact absurd h1 hab
            · rw [set_ne hca]
              constructor
              · exact Or.inl
              · rintro (h1 | ⟨h1, _⟩ | ⟨h1, _⟩)
                · exact h1
                · exact absurd h1 hca
                · exact absurd h1 hcb
        rw [key, h.conn]
        have hme : m.rank a = me ∨ m.rank b = me := by
          rcases hc with ⟨h1, _⟩ | ⟨_, h1⟩
          · exact Or.inl h1
          · exact Or.inr h1
        constructor
        · rintro (⟨d, h1, h2⟩ | ⟨h1, h2⟩ | ⟨h1, h2⟩)
          · exact ⟨d, Or.inl h1, h2⟩
          · refine ⟨b, Or.inr (Or.inl ⟨h1.symm, rfl⟩), h2.symm, ?_, ?_⟩
            · rw [h1, h2]; exact hne
            · rw [h1, h2]; exact hme
          · refine ⟨a, Or.inr (Or.inr ⟨rfl, h1.symm⟩), h2.symm, ?_, ?_⟩
            · rw [h1, h2]; exact hne.symm
            · rw [h1, h2]; exact hme.symm
        · rintro ⟨d, h1 | ⟨h1, h2⟩ | ⟨h1, h2⟩, h3, h4, h5⟩
          · exact Or.inl ⟨d, h1, h3, h4, h5⟩
          · exact Or.inr (Or.inl ⟨h1.symm, by rw [← h3, h2]⟩)
          · exact Or.inr (Or.inr ⟨h2.symm, by rw [← h3, h1]⟩)
      · intro r
        simp only [hadj]
        have key : (r ∈ if m.rank b = me then add (if m.rank a = me then add s.links (m.rank b) else s.links) (m.rank a)
              else if m.rank a = me then add s.links (m.rank b) else s.links) ↔
            r ∈ s.links ∨ (m.rank a = me ∧ r = m.rank b) ∨ (m.rank b = me ∧ r = m.rank a) := by
          by_cases h1 : m.rank b = me <;> by_cases h2 : m.rank a = me <;> simp only [h1, h2, if_true, if_false, mem_add] <;>
            tauto
        rw [key, h.links]
        constructor
        · rintro (⟨c, d, h1, h2⟩ | ⟨h1, h2⟩ | ⟨h1, h2⟩)
          · exact ⟨c, d, Or.inl h1, h2⟩
          · exact ⟨a, b, Or.inr (Or.inl ⟨rfl, rfl⟩), h1, h2.symm, by rw [h2, ← h1]; exact hne.symm⟩
          · exact ⟨b, a, Or.inr (Or.inr ⟨rfl, rfl⟩), h1, h2.symm, by rw [h2, ← h1]; exact hne⟩
        · rintro ⟨c, d, h1 | ⟨h1, h2⟩ | ⟨h1, h2⟩, h3, h4, h5⟩
          · exact Or.inl ⟨c, d, h1, h3, h4, h5⟩
          · exact Or.inr (Or.inl ⟨by rw [h1]; exact h3, by rw [h2]; exact h4.symm⟩)
          · exact Or.inr (Or.inr ⟨by rw [h2]; exact h3, by rw [h1]; exact h4.symm⟩)
      · exact h.irest
    · rename_i hc
      have hsame : m.rank a = me ↔ m.rank b = me := by tauto
      constructor
      · exact h.own
      · exact h.other
      · intro c hr
        rw [h.ghost c hr]
        simp only [hadj]
        constructor
        · rintro ⟨d, h1, h2⟩
          exact ⟨d, Or.inl h1, h2⟩
        · rintro ⟨d, h1 | ⟨h1, h2⟩ | ⟨h1, h2⟩, h3⟩
          · exact ⟨d, h1, h3⟩
          · exact absurd (by rw [← h1]; exact hsame.2 (by rw [h2]; exact h3)) hr
          · exact absurd (by rw [← h2]; exact hsame.1 (by rw [h1]; exact h3)) hr
      · intro c r
        rw [h.conn c r]
        simp only [hadj]
        constructor
        · rintro ⟨d, h1, h2⟩
          exact ⟨d, Or.inl h1, h2⟩
        · rintro ⟨d, h1 | ⟨h1, h2⟩ | ⟨h1, h2⟩, h3, h4, h5⟩
          · exact ⟨d, h1, h3, h4, h5⟩
          · subst h1 h2 h3
            exfalso
            rcases h5 with h5 | h5
            · exact h4 (by rw [h5, hsame.1 h5])
            · exact h4 (by rw [h5, hsame.2 h5])
          · subst h1 h2 h3
            exfalso
            rcases h5 with h5 | h5
            · exact h4 (by rw [h5, hsame.2 h5])
            · exact h4 (by rw [h5, hsame.1 h5])
      · intro r
        rw [h.links r]
        simp only [hadj]
        constructor
        · rintro ⟨c, d, h1, h2⟩
          exact ⟨c, d, Or.inl h1, h2⟩
        · rintro ⟨c, d, h1 | ⟨h1, h2⟩ | ⟨h1, h2⟩, h3, h4, h5⟩
          · exact ⟨c, d, h1, h3, h4, h5⟩
          · subst h1 h2 h4
            exact absurd (hsame.1 h3) h5
          · subst h1 h2 h4
            exact absurd (hsame.2 h3) h5
      · exact h.irest

theorem bulk_inv (m : Mesh) (me : Nat) : BulkInv m me m.facets (bulk m me) := by
  unfold bulk
  induction m.facets using List.reverseRecOn with
  | nil =>
    constructor
    · intro c h; simp [start, h]
    · intro c h; simp [start, h]
    · intro c h; simp [start, h, AdjIn]
    · intro c r; simp [start, AdjIn]
    · intro r; simp [start, AdjIn]
    · exact ⟨rfl, rfl, rfl⟩
  | append_singleton fs f ih =>
    rw [List.foldl_append, List.foldl_cons, List.foldl_nil]
    exact bulk_inv_step ih f

/-! ## The interface elements -/

/-- The outside of the interface element has rank `r`. -/
def OutRank (m : Mesh) (e r : Nat) : Prop := ∃ o, m.out e = some o ∧ m.rank o = r

theorem outRank_some {m : Mesh} {e o r : Nat} (h : m.out e = some o) : OutRank m e r ↔ m.rank o = r := by
  simp [OutRank, h]

theorem outRank_none {m : Mesh} {e r : Nat} (h : m.out e = none) : ¬ OutRank m e r := by
  simp [OutRank, h]

/-- State after the interface elements `es`, starting from `s0`. -/
structure IInv (m : Mesh) (me : Nat) (s0 : Part) (es : List Nat) (s : Part) : Prop where
  cells : s.part = s0.part ∧ s.conn = s0.conn ∧ s.jpart = s0.jpart
  own : ∀ e ∈ es, m.irank e = me → s.ipart e = 0
  other : ∀ e ∈ es, m.irank e ≠ me → s.ipart e = 2 ∨ s.ipart e = -1
  ghost : ∀ e ∈ es, m.irank e ≠ me → (s.ipart e = 2 ↔ OutRank m e me)
  conn : ∀ e ∈ es, ∀ r, r ∈ s.iconn e ↔
    (m.irank e = me ∧ r ≠ me ∧ OutRank m e r) ∨ (m.irank e ≠ me ∧ OutRank m e me ∧ r = m.irank e)
  links : ∀ r, r ∈ s.links ↔ r ∈ s0.links ∨ ∃ e ∈ es, m.irank e = me ∧ r ≠ me ∧ OutRank m e r

theorem i_inv_step {m : Mesh} {me : Nat} {s0 s : Part} {es : List Nat} (h : IInv m me s0 es s) (a : Nat) :
    IInv m me s0 (es ++ [a]) (ielemOne m me s a) := by
  -- what happens to the element itself, and that nothing else changes
  have hself : (ielemOne m me s a).part = s.part ∧ (ielemOne m me s a).conn = s.conn ∧ (ielemOne m me s a).jpart = s.jpart ∧
      (∀ x, x ≠ a → (ielemOne m me s a).ipart x = s.ipart x ∧ (ielemOne m me s a).iconn x = s.iconn x) ∧
      (m.irank a = me → (ielemOne m me s a).ipart a = 0) ∧
      (m.irank a ≠ me → ((ielemOne m me s a).ipart a = 2 ∧ OutRank m a me) ∨ ((ielemOne m me s a).ipart a = -1 ∧ ¬ OutRank m a me)) ∧
      (∀ r, r ∈ (ielemOne m me s a).iconn a ↔
        (m.irank a = me ∧ r ≠ me ∧ OutRank m a r) ∨ (m.irank a ≠ me ∧ OutRank m a me ∧ r = m.irank a)) ∧
      (∀ r, r ∈ (ielemOne m me s a).links ↔ r ∈ s.links ∨ (m.irank a = me ∧ r ≠ me ∧ OutRank m a r)) := by
    have hz : ¬ ((0 : Int) = -1) := by decide
    have h20 : ¬ ((2 : Int) = 0) := by decide
    by_cases h1 : m.irank a = me
    · cases ho : m.out a with
      | none =>
        have hs : ielemOne m me s a = { s with iconn := set s.iconn a [], ipart := set s.ipart a 0 } := by
          simp [ielemOne, ielemIn, ielemOut, h1, ho]
        rw [hs]
        refine ⟨rfl, rfl, rfl, fun x hx => ⟨set_ne hx, set_ne hx⟩, fun _ => set_eq rfl, fun hn => absurd h1 hn, ?_, ?_⟩
        · intro r
          have := outRank_none (m := m) (e := a) (r := r) ho
          have := outRank_none (m := m) (e := a) (r := me) ho
          simp only [set_eq, List.not_mem_nil, false_iff]
          tauto
        · intro r
          have := outRank_none (m := m) (e := a) (r := r) ho
          simp only
          tauto
      | some o =>
        by_cases h2 : m.rank o = me
        · have hs : ielemOne m me s a = { s with iconn := set s.iconn a [], ipart := set s.ipart a 0 } := by
            simp [ielemOne, ielemIn, ielemOut, h1, ho, h2, set]
          rw [hs]
          refine ⟨rfl, rfl, rfl, fun x hx => ⟨set_ne hx, set_ne hx⟩, fun _ => set_eq rfl, fun hn => absurd h1 hn, ?_, ?_⟩
          · intro r
            rw [outRank_some ho, outRank_some ho]
            simp only [set_eq, List.not_mem_nil, false_iff]
            rintro (⟨_, h3, h4⟩ | ⟨h3, _⟩)
            · exact h3 (h4 ▸ h2)
            · exact h3 h1
          · intro r
            rw [outRank_some ho]
            constructor
            · exact Or.inl
            · rintro (h3 | ⟨_, h3, h4⟩)
              · exact h3
              · exact absurd (h4 ▸ h2) h3
        · have hs : ielemOne m me s a = { s with iconn := set (set s.iconn a []) a [m.rank o], ipart := set s.ipart a 0, links := add s.links (m.rank o) } := by
            simp [ielemOne, ielemIn, ielemOut, h1, ho, h2, set, addIConn, add]
          rw [hs]
          refine ⟨rfl, rfl, rfl, fun x hx => ⟨set_ne hx, (set_ne hx).trans (set_ne hx)⟩, fun _ => set_eq rfl, fun hn => absurd h1 hn, ?_, ?_⟩
          · intro r
            rw [outRank_some ho, outRank_some ho]
            simp only [set_eq, List.mem_singleton]
            constructor
            · intro h3
              exact Or.inl ⟨h1, h3 ▸ h2, h3.symm⟩
            · rintro (⟨_, _, h3⟩ | ⟨h3, _⟩)
              · exact h3.symm
              · exact absurd h1 h3
          · intro r
            rw [outRank_some ho]
            simp only [mem_add]
            constructor
            · rintro (h3 | h3)
              · exact Or.inl h3
              · exact Or.inr ⟨h1, h3 ▸ h2, h3.symm⟩
            · rintro (h3 | ⟨_, _, h3⟩)
              · exact Or.inl h3
              · exact Or.inr h3.symm
    · cases ho : m.out a with
      | none =>
        have hs : ielemOne m me s a = { s with iconn := set s.iconn a [], ipart := set s.ipart a (-1) } := by
          simp [ielemOne, ielemIn, ielemOut, h1, ho]
        rw [hs]
        refine ⟨rfl, rfl, rfl, fun x hx => ⟨set_ne hx, set_ne hx⟩, fun h => absurd h h1,
          fun _ => Or.inr ⟨set_eq rfl, outRank_none ho⟩, ?_, ?_⟩
        · intro r
          have := outRank_none (m := m) (e := a) (r := me) ho
          simp only [set_eq, List.not_mem_nil, false_iff]
          tauto
        · intro r
          simp only
          tauto
      | some o =>
        by_cases h2 : m.rank o = me
        · have hs : ielemOne m me s a = { s with iconn := set (set s.iconn a []) a [m.irank a], ipart := set (set s.ipart a (-1)) a 2 } := by
            have h1' : ¬ m.rank (m.ins a) = me := h1
            simp [ielemOne, ielemIn, ielemOut, h1', ho, h2, set, addIConn, add, Mesh.irank]
          rw [hs]
          refine ⟨rfl, rfl, rfl, fun x hx => ⟨(set_ne hx).trans (set_ne hx), (set_ne hx).trans (set_ne hx)⟩, fun h => absurd h h1,
            fun _ => Or.inl ⟨set_eq rfl, (outRank_some ho).2 h2⟩, ?_, ?_⟩
          · intro r
            rw [outRank_some ho, outRank_some ho]
            simp only [set_eq, List.mem_singleton]
            tauto
          · intro r
            simp only
            tauto
        · have hs : ielemOne m me s a = { s with iconn := set s.iconn a [], ipart := set s.ipart a (-1) } := by
            simp [ielemOne, ielemIn, ielemOut, h1, ho, h2]
          rw [hs]
          refine ⟨rfl, rfl, rfl, fun x hx => ⟨set_ne hx, set_ne hx⟩, fun h => absurd h h1,
            fun _ => Or.inr ⟨set_eq rfl, fun h => h2 ((outRank_some ho).1 h)⟩, ?_, ?_⟩
          · intro r
            rw [outRank_some ho, outRank_some ho]
            simp only [set_eq, List.not_mem_nil, false_iff]
            tauto
          · intro r
            simp only
            tauto
  obtain ⟨hp, hc, hj, hne, hown, hoth, hcon, hlink⟩ := hself
  constructor
  · exact ⟨hp.trans h.cells.1, hc.trans h.cells.2.1, hj.trans h.cells.2.2⟩
  · intro e he hr
    by_cases hea : e = a
    · subst hea; exact hown hr
    · rw [(hne e hea).1]
      exact h.own e (by simpa [hea] using he) hr
  · intro e he hr
    by_cases hea : e = a
    · subst hea
      rcases hoth hr with h1 | h1
      · exact Or.inl h1.1
      · exact Or.inr h1.1
    · rw [(hne e hea).1]
      exact h.other e (by simpa [hea] using he) hr
  · intro e he hr
    by_cases hea : e = a
    · subst hea
      rcases hoth hr with h1 | h1
      · simp [h1.1, h1.2]
      · simp [h1.1, h1.2]
    · rw [(hne e hea).1]
      exact h.ghost e (by simpa [hea] using he) hr
  · intro e he r
    by_cases hea : e = a
    · subst hea; exact hcon r
    · rw [(hne e hea).2]
      exact h.conn e (by simpa [hea] using he) r
  · intro r
    rw [hlink, h.links]
    simp only [List.mem_append, List.mem_singleton]
    constructor
    · rintro ((h1 | ⟨e, he, h1⟩) | h1)
      · exact Or.inl h1
      · exact Or.inr ⟨e, Or.inl he, h1⟩
      · exact Or.inr ⟨a, Or.inr rfl, h1⟩
    · rintro (h1 | ⟨e, he | he, h1⟩)
      · exact Or.inl (Or.inl h1)
      · exact Or.inl (Or.inr ⟨e, he, h1⟩)
      · exact Or.inr (he ▸ h1)

theorem i_inv (m : Mesh) (me : Nat) : IInv m me (bulk m me) m.ielems (iface m me) := by
  unfold iface
  generalize bulk m me = s0
  induction m.ielems using List.reverseRecOn with
  | nil =>
    constructor
    · exact ⟨rfl, rfl, rfl⟩
    all_goals simp
  | append_singleton es e ih =>
    rw [List.foldl_append, List.foldl_cons, List.foldl_nil]
    exact i_inv_step ih e

/-! ## Ghosts at interface vertices -/

/-- The cell is a side of the interface element. -/
def Side (m : Mesh) (e c : Nat) : Prop := m.ins e = c ∨ m.out e = some c

/-- Valid grids: the sides of interface elements are the two sides of a facet, and interface vertices belong to interface
elements. -/
structure Mesh.WF (m : Mesh) : Prop where
  sides : ∀ e ∈ m.ielems, ∀ o, m.out e = some o → AdjIn m.facets (m.ins e) o
  joints : ∀ j ∈ m.joints, ∀ e ∈ j, e ∈ m.ielems

/-- State after the elements `es` have been treated as ghosts. -/
structure GInv (m : Mesh) (me : Nat) (s0 : Part) (es : List Nat) (s : Part) : Prop where
  rest : s.conn = s0.conn ∧ s.iconn = s0.iconn ∧ s.links = s0.links ∧ s.jpart = s0.jpart
  iown : ∀ e ∈ m.ielems, m.irank e = me → s.ipart e = 0
  iother : ∀ e ∈ m.ielems, m.irank e ≠ me → s.ipart e = 2 ∨ s.ipart e = -1
  ighost : ∀ e ∈ m.ielems, m.irank e ≠ me → (s.ipart e = 2 ↔ OutRank m e me ∨ e ∈ es)
  own : ∀ c, m.rank c = me → s.part c = 0
  other : ∀ c, m.rank c ≠ me → s.part c = 2 ∨ s.part c = -1
  ghost : ∀ c, m.rank c ≠ me → (s.part c = 2 ↔
    (∃ d, AdjIn m.facets c d ∧ m.rank d = me) ∨ ∃ e ∈ es, m.irank e ≠ me ∧ Side m e c)

theorem cellGhost_rest (s : Part) (c : Nat) : (cellGhost s c).conn = s.conn ∧ (cellGhost s c).iconn = s.iconn ∧
    (cellGhost s c).links = s.links ∧ (cellGhost s c).jpart = s.jpart ∧ (cellGhost s c).ipart = s.ipart := by
  unfold cellGhost
  split <;> exact ⟨rfl, rfl, rfl, rfl, rfl⟩

theorem cellGhost_part (s : Part) (c x : Nat) : (cellGhost s c).part x = if x = c ∧ s.part x = -1 then 2 else s.part x := by
  unfold cellGhost
  by_cases h : s.part c = -1
  · simp only [h, if_true]
    by_cases hx : x = c
    · subst hx; simp [set, h]
    · simp [set, hx]
  · simp only [h, if_false]
    by_cases hx : x = c
    · subst hx; simp [h]
    · simp [hx]

theorem ghostOne_rest (m : Mesh) (s : Part) (e : Nat) : (ghostOne m s e).conn = s.conn ∧ (ghostOne m s e).iconn = s.iconn ∧
    (ghostOne m s e).links = s.links ∧ (ghostOne m s e).jpart = s.jpart := by
  unfold ghostOne
  split
  · cases m.out e with
    | none =>
      obtain ⟨h1, h2, h3, h4, _⟩ := cellGhost_rest { s with ipart := set s.ipart e 2 } (m.ins e)
      exact ⟨h1, h2, h3, h4⟩
    | some o =>
      obtain ⟨h1, h2, h3, h4, _⟩ := cellGhost_rest { s with ipart := set s.ipart e 2 } (m.ins e)
      obtain ⟨g1, g2, g3, g4, _⟩ := cellGhost_rest (cellGhost { s with ipart := set s.ipart e 2 } (m.ins e)) o
      exact ⟨g1.trans h1, g2.trans h2, g3.trans h3, g4.trans h4⟩
  · exact ⟨rfl, rfl, rfl, rfl⟩

theorem ghostOne_ipart (m : Mesh) (s : Part) (e x : Nat) :
    (ghostOne m s e).ipart x = if x = e ∧ s.ipart x = -1 then 2 else s.ipart x := by
  unfold ghostOne
  by_cases h : s.ipart e = -1
  · simp only [h, if_true]
    have hset : ∀ t : Part, t.ipart = set s.ipart e 2 → t.ipart x = if x = e ∧ s.ipart x = -1 then 2 else s.ipart x := by
      intro t ht
      rw [ht]
      by_cases hx : x = e
      · subst hx; simp [set, h]
      · simp [set, hx]
    cases m.out e with
    | none => exact hset _ (cellGhost_rest _ _).2.2.2.2
    | some o => exact hset _ ((cellGhost_rest _ _).2.2.2.2.trans (cellGhost_rest _ _).2.2.2.2)
  · simp only [h, if_false]
    by_cases hx : x = e
    · subst hx; simp [h]
    · simp [hx]

theorem ghostOne_part (m : Mesh) (s : Part) (e x : Nat) [Decidable (Side m e x)] :
    (ghostOne m s e).part x = if s.ipart e = -1 ∧ Side m e x ∧ s.part x = -1 then 2 else s.part x := by
  unfold ghostOne
  by_cases h : s.ipart e = -1
  · simp only [h, if_true, true_and]
    cases ho : m.out e with
    | none =>
      simp only [cellGhost_part, Side, ho, reduceCtorEq, or_false]
      by_cases hx : x = m.ins e
      · subst hx; simp
      · have hx' : ¬ m.ins e = x := fun h => hx h.symm
        simp [hx, hx']
    | some o =>
      simp only [cellGhost_part, Side, ho, Option.some.injEq]
      by_cases hx : x = m.ins e
      · subst hx
        by_cases hp : s.part (m.ins e) = -1 <;> simp [hp]
      · by_cases hy : x = o
        · subst hy
          simp [hx]
        · have hx' : ¬ m.ins e = x := fun h => hx h.symm
          have hy' : ¬ o = x := fun h => hy h.symm
          simp [hx, hy, hx', hy']
  · simp [h]

theorem g_inv_step {m : Mesh} (hw : m.WF) {me : Nat} {s0 s : Part} {es : List Nat} (h : GInv m me s0 es s) {a : Nat}
    (ha : a ∈ m.ielems) : GInv m me s0 (es ++ [a]) (ghostOne m s a) := by
  classical
  obtain ⟨r1, r2, r3, r4⟩ := ghostOne_rest m s a
  have hpos : m.irank a ≠ me ↔ ¬ s.ipart a = 0 := by
    constructor
    · intro h1 h2
      rcases h.iother a ha h1 with h3 | h3 <;> omega
    · intro h1 h2
      exact h1 (h.iown a ha h2)
  constructor
  · exact ⟨r1.trans h.rest.1, r2.trans h.rest.2.1, r3.trans h.rest.2.2.1, r4.trans h.rest.2.2.2⟩
  · intro e he hr
    rw [ghostOne_ipart, h.iown e he hr]
    simp
  · intro e he hr
    rw [ghostOne_ipart]
    rcases h.iother e he hr with h1 | h1 <;> rw [h1] <;> simp <;> tauto
  · intro e he hr
    rw [ghostOne_ipart]
    simp only [List.mem_append, List.mem_singleton]
    have hg := h.ighost e he hr
    by_cases hea : e = a
    · subst hea
      rcases h.iother e he hr with h1 | h1
      · simp [h1]
      · simp [h1]
    · simp only [hea, false_and, if_false, or_false]
      exact hg
  · intro c hr
    rw [ghostOne_part, h.own c hr]
    simp
  · intro c hr
    rw [ghostOne_part]
    split
    · exact Or.inl rfl
    · exact h.other c hr
  · intro c hr
    rw [ghostOne_part]
    have hg := h.ghost c hr
    constructor
    · intro h1
      split at h1
      · rename_i hc
        refine Or.inr ⟨a, by simp, ?_, hc.2.1⟩
        rw [hpos, hc.1]; decide
      · rcases hg.1 h1 with h2 | ⟨e, he, h2⟩
        · exact Or.inl h2
        · exact Or.inr ⟨e, by simp [he], h2⟩
    · intro h1
      split
      · rfl
      · rename_i hc
        rw [hg]
        rcases h1 with h1 | ⟨e, he, h2, h3⟩
        · exact Or.inl h1
        · rw [List.mem_append, List.mem_singleton] at he
          rcases he with he | rfl
          · exact Or.inr ⟨e, he, h2, h3⟩
          · rcases h.iother e ha h2 with h4 | h4
            · rcases (h.ighost e ha h2).1 h4 with h5 | h5
              · obtain ⟨o, ho, hor⟩ := h5
                have hadj := hw.sides e ha o ho
                rcases h3 with h3 | h3
                · exact Or.inl ⟨o, h3 ▸ hadj, hor⟩
                · rw [ho] at h3
                  have h3 := Option.some.inj h3
                  exact absurd (h3 ▸ hor) hr
              · exact Or.inr ⟨e, h5, h2, h3⟩
            · rw [← hg]
              rcases h.other c hr with h5 | h5
              · exact h5
              · exact absurd ⟨h4, h3, h5⟩ hc

/-- A process has an interface element at the vertex. -/
def At (m : Mesh) (j : List Nat) (r : Nat) : Prop := ∃ e ∈ j, m.irank e = r

theorem g_inv_list {m : Mesh} (hw : m.WF) {me : Nat} {s0 : Part} (j : List Nat) : ∀ {s : Part} {es : List Nat},
    GInv m me s0 es s → (∀ e ∈ j, e ∈ m.ielems) → GInv m me s0 (es ++ j) (j.foldl (ghostOne m) s) := by
  induction j with
  | nil => intro s es h _; simpa using h
  | cons a j ih =>
    intro s es h hj
    have := ih (g_inv_step hw h (hj a (by simp))) (fun e he => hj e (by simp [he]))
    simpa [List.append_assoc] using this

theorem g_inv_joint {m : Mesh} (hw : m.WF) {me : Nat} {s0 s : Part} {es : List Nat} (h : GInv m me s0 es s) {j : List Nat}
    (hj : ∀ e ∈ j, e ∈ m.ielems) [Decidable (At m j me ∧ ∃ e ∈ j, m.irank e ≠ me)] :
    GInv m me s0 (es ++ if At m j me ∧ ∃ e ∈ j, m.irank e ≠ me then j else []) (ghostJoint m s j) := by
  have hz : ∀ e ∈ j, (s.ipart e = 0 ↔ m.irank e = me) := by
    intro e he
    constructor
    · intro h1
      by_contra h2
      rcases h.iother e (hj e he) h2 with h3 | h3 <;> omega
    · exact h.iown e (hj e he)
  have hcond : (0 < j.countP (fun e => decide (s.ipart e = 0)) ∧ 0 < j.countP (fun e => decide (s.ipart e ≠ 0))) ↔
      (At m j me ∧ ∃ e ∈ j, m.irank e ≠ me) := by
    simp only [List.countP_pos_iff, decide_eq_true_eq, At]
    constructor
    · rintro ⟨⟨e, he, h1⟩, ⟨e', he', h2⟩⟩
      exact ⟨⟨e, he, (hz e he).1 h1⟩, ⟨e', he', fun h => h2 ((hz e' he').2 h)⟩⟩
    · rintro ⟨⟨e, he, h1⟩, ⟨e', he', h2⟩⟩
      exact ⟨⟨e, he, (hz e he).2 h1⟩, ⟨e', he', fun h => h2 ((hz e' he').1 h)⟩⟩
  unfold ghostJoint
  by_cases hc : At m j me ∧ ∃ e ∈ j, m.irank e ≠ me
  · rw [if_pos (hcond.2 hc), if_pos hc]
    exact g_inv_list hw j h hj
  · rw [if_neg (fun h => hc (hcond.1 h)), if_neg hc, List.append_nil]
    exact h

open Classical in
/-- The elements treated as ghosts. -/
noncomputable def treated (m : Mesh) (me : Nat) (js : List (List Nat)) : List Nat :=
  js.flatMap fun j => if At m j me ∧ ∃ e ∈ j, m.irank e ≠ me then j else []

theorem mem_treated {m : Mesh} {me : Nat} {js : List (List Nat)} {e : Nat} (h : m.irank e ≠ me) :
    e ∈ treated m me js ↔ ∃ j ∈ js, e ∈ j ∧ At m j me := by
  unfold treated
  rw [List.mem_flatMap]
  constructor
  · rintro ⟨j, hj, he⟩
    split at he
    · rename_i hc
      exact ⟨j, hj, he, hc.1⟩
    · simp at he
  · rintro ⟨j, hj, he, hat⟩
    refine ⟨j, hj, ?_⟩
    rw [if_pos ⟨hat, e, he, h⟩]
    exact he

theorem g_inv {m : Mesh} (hw : m.WF) (me : Nat) : GInv m me (iface m me) (treated m me m.joints) (ghosts m me) := by
  classical
  have hb := bulk_inv m me
  have hi := i_inv m me
  have base : GInv m me (iface m me) [] (iface m me) := by
    constructor
    · exact ⟨rfl, rfl, rfl, rfl⟩
    · exact hi.own
    · exact hi.other
    · intro e he hr
      rw [hi.ghost e he hr]
      simp
    · intro c hr; rw [hi.cells.1]; exact hb.own c hr
    · intro c hr; rw [hi.cells.1]; exact hb.other c hr
    · intro c hr; rw [hi.cells.1, hb.ghost c hr]; simp
  unfold ghosts
  have key : ∀ js : List (List Nat), (∀ j ∈ js, ∀ e ∈ j, e ∈ m.ielems) → ∀ es s, GInv m me (iface m me) es s →
      GInv m me (iface m me) (es ++ treated m me js) (js.foldl (ghostJoint m) s) := by
    intro js
    induction js with
    | nil => intro _ es s h; simpa [treated] using h
    | cons j js ih =>
      intro hj es s h
      have h1 := g_inv_joint hw h (hj j (by simp))
      have h2 := ih (fun j' hj' => hj j' (by simp [hj'])) _ _ h1
      have h3 : (es ++ (if At m j me ∧ ∃ e ∈ j, m.irank e ≠ me then j else [])) ++ treated m me js =
          es ++ treated m me (j :: js) := by
        simp only [treated, List.flatMap_cons, List.append_assoc]
      rw [h3] at h2
      exact h2
  simpa using key m.joints hw.joints [] _ base

/-! ## Connectivity at interface vertices -/

/-- State after the vertices `js`. -/
structure CInv (m : Mesh) (me : Nat) (s0 : Part) (js : List (List Nat)) (s : Part) : Prop where
  rest : s.part = s0.part ∧ s.conn = s0.conn ∧ s.ipart = s0.ipart
  jpart : s.jpart = s0.jpart ++ js.map fun j =>
    classify j.length (j.countP fun e => s0.ipart e = 0) (j.countP fun e => s0.ipart e = 2)
  conn : ∀ e r, r ∈ s.iconn e ↔ r ∈ s0.iconn e ∨ ∃ j ∈ js, e ∈ j ∧ At m j me ∧ (∃ e' ∈ j, m.irank e' ≠ me) ∧ At m j r ∧ r ≠ m.irank e
  links : ∀ r, r ∈ s.links ↔ r ∈ s0.links ∨ ∃ j ∈ js, At m j me ∧ At m j r ∧ r ≠ me

theorem linkOne_spec (m : Mesh) (ranks : List Nat) (e : Nat) : ∀ s : Part,
    ((linkOne m ranks s e).part = s.part ∧ (linkOne m ranks s e).conn = s.conn ∧ (linkOne m ranks s e).ipart = s.ipart ∧
      (linkOne m ranks s e).jpart = s.jpart) ∧
    (∀ x r, r ∈ (linkOne m ranks s e).iconn x ↔ r ∈ s.iconn x ∨ (x = e ∧ r ∈ ranks ∧ r ≠ m.irank e)) ∧
    (∀ r, r ∈ (linkOne m ranks s e).links ↔ r ∈ s.links ∨ (s.ipart e = 0 ∧ r ∈ ranks ∧ r ≠ m.irank e)) := by
  unfold linkOne
  induction ranks with
  | nil => intro s; simp
  | cons q ranks ih =>
    intro s
    rw [List.foldl_cons]
    by_cases hq : q ≠ m.irank e
    · rw [if_pos hq]
      obtain ⟨⟨h1, h2, h3, h4⟩, h5, h6⟩ := ih (addIConn s e q)
      refine ⟨⟨h1, h2, h3, h4⟩, ?_, ?_⟩
      · intro x r
        rw [h5]
        simp only [addIConn, set]
        by_cases hx : x = e
        · subst hx
          simp only [if_true, mem_add, true_and, List.mem_cons]
          constructor
          · rintro ((h | h) | h)
            · exact Or.inl h
            · exact Or.inr ⟨Or.inl h, h ▸ hq⟩
            · exact Or.inr ⟨Or.inr h.1, h.2⟩
          · rintro (h | ⟨h | h, h'⟩)
            · exact Or.inl (Or.inl h)
            · exact Or.inl (Or.inr h)
            · exact Or.inr ⟨h, h'⟩
        · simp [hx]
      · intro r
        rw [h6]
        simp only [addIConn, List.mem_cons]
        by_cases hx : s.ipart e = 0
        · simp only [hx, if_true, mem_add, true_and]
          constructor
          · rintro ((h | h) | h)
            · exact Or.inl h
            · exact Or.inr ⟨Or.inl h, h ▸ hq⟩
            · exact Or.inr ⟨Or.inr h.1, h.2⟩
          · rintro (h | ⟨h | h, h'⟩)
            · exact Or.inl (Or.inl h)
            · exact Or.inl (Or.inr h)
            · exact Or.inr ⟨h, h'⟩
        · simp [hx]
    · rw [if_neg hq]
      obtain ⟨h1, h5, h6⟩ := ih s
      refine ⟨h1, ?_, ?_⟩
      · intro x r
        rw [h5]
        simp only [List.mem_cons]
        constructor
        · rintro (h | ⟨h, h', h''⟩)
          · exact Or.inl h
          · exact Or.inr ⟨h, Or.inr h', h''⟩
        · rintro (h | ⟨h, h' | h', h''⟩)
          · exact Or.inl h
          · exact absurd (h' ▸ h'') hq
          · exact Or.inr ⟨h, h', h''⟩
      · intro r
        rw [h6]
        simp only [List.mem_cons]
        constructor
        · rintro (h | ⟨h, h', h''⟩)
          · exact Or.inl h
          · exact Or.inr ⟨h, Or.inr h', h''⟩
        · rintro (h | ⟨h, h' | h', h''⟩)
          · exact Or.inl h
          · exact absurd (h' ▸ h'') hq
          · exact Or.inr ⟨h, h', h''⟩

theorem linkAll_spec (m : Mesh) (ranks : List Nat) (l : List Nat) : ∀ s : Part,
    let s' := l.foldl (linkOne m ranks) s
    (s'.part = s.part ∧ s'.conn = s.conn ∧ s'.ipart = s.ipart ∧ s'.jpart = s.jpart) ∧
    (∀ x r, r ∈ s'.iconn x ↔ r ∈ s.iconn x ∨ (x ∈ l ∧ r ∈ ranks ∧ r ≠ m.irank x)) ∧
    (∀ r, r ∈ s'.links ↔ r ∈ s.links ∨ ∃ e ∈ l, s.ipart e = 0 ∧ r ∈ ranks ∧ r ≠ m.irank e) := by
  induction l with
  | nil => intro s; simp
  | cons a l ih =>
    intro s
    obtain ⟨⟨g1, g2, g3, g4⟩, g5, g6⟩ := linkOne_spec m ranks a s
    obtain ⟨⟨h1, h2, h3, h4⟩, h5, h6⟩ := ih (linkOne m ranks s a)
    rw [List.foldl_cons]
    refine ⟨⟨h1.trans g1, h2.trans g2, h3.trans g3, h4.trans g4⟩, ?_, ?_⟩
    · intro x r
      rw [h5, g5]
      simp only [List.mem_cons]
      constructor
      · rintro ((h | ⟨h, h', h''⟩) | ⟨h, h'⟩)
        · exact Or.inl h
        · exact Or.inr ⟨Or.inl h, h', h ▸ h''⟩
        · exact Or.inr ⟨Or.inr h, h'⟩
      · rintro (h | ⟨h | h, h', h''⟩)
        · exact Or.inl (Or.inl h)
        · exact Or.inl (Or.inr ⟨h, h', h ▸ h''⟩)
        · exact Or.inr ⟨h, h', h''⟩
    · intro r
      rw [h6, g6, g3]
      simp only [List.mem_cons]
      constructor
      · rintro ((h | h) | ⟨e, he, h⟩)
        · exact Or.inl h
        · exact Or.inr ⟨a, Or.inl rfl, h⟩
        · exact Or.inr ⟨e, Or.inr he, h⟩
      · rintro (h | ⟨e, he | he, h⟩)
        · exact Or.inl (Or.inl h)
        · exact Or.inl (Or.inr (he ▸ h))
        · exact Or.inr ⟨e, he, h⟩

theorem c_inv_step {m : Mesh} (hw : m.WF) {me : Nat} {s : Part} {js : List (List Nat)}
    (h : CInv m me (ghosts m me) js s) {j : List Nat} (hj : j ∈ m.joints) :
    CInv m me (ghosts m me) (js ++ [j]) (borderJoint m s j) := by
  have hg := g_inv hw me
  have hz : ∀ e ∈ j, (s.ipart e = 0 ↔ m.irank e = me) := by
    intro e he
    rw [h.rest.2.2]
    constructor
    · intro h1
      by_contra h2
      rcases hg.iother e (hw.joints j hj e he) h2 with h3 | h3 <;> omega
    · exact hg.iown e (hw.joints j hj e he)
  have hcond : classify j.length (j.countP fun e => decide (s.ipart e = 0)) (j.countP fun e => decide (s.ipart e = 2)) = 1 ↔
      (At m j me ∧ ∃ e ∈ j, m.irank e ≠ me) := by
    unfold classify
    constructor
    · intro hc
      split at hc
      · omega
      · rename_i hne
        split at hc
        · rename_i hpos
          refine ⟨?_, ?_⟩
          · obtain ⟨e, he, h1⟩ := List.countP_pos_iff.1 hpos.1
            exact ⟨e, he, (hz e he).1 (of_decide_eq_true h1)⟩
          · obtain ⟨e, he, h1⟩ := List.countP_pos_iff.1 hpos.2
            refine ⟨e, he, fun h2 => ?_⟩
            have h1 := of_decide_eq_true h1
            rw [(hz e he).2 h2] at h1
            exact absurd h1 (by decide)
        · split at hc <;> omega
    · rintro ⟨⟨e, he, h1⟩, ⟨e', he', h2⟩⟩
      have hne : ¬ (j.countP fun e => decide (s.ipart e = 0)) = j.length := by
        intro heq
        have := List.countP_eq_length.1 heq e' he'
        exact h2 ((hz e' he').1 (of_decide_eq_true this))
      have hpos1 : 0 < j.countP fun e => decide (s.ipart e = 0) :=
        List.countP_pos_iff.2 ⟨e, he, decide_eq_true ((hz e he).2 h1)⟩
      have hpos2 : 0 < j.countP fun e => decide (s.ipart e = 2) := by
        refine List.countP_pos_iff.2 ⟨e', he', decide_eq_true ?_⟩
        rw [h.rest.2.2, hg.ighost e' (hw.joints j hj e' he') h2, mem_treated h2]
        exact Or.inr ⟨j, hj, he', e, he, h1⟩
      rw [if_neg hne, if_pos ⟨hpos1, hpos2⟩]
  have hjp : ∀ t : Part, t.jpart = s.jpart ++
      [classify j.length (j.countP fun e => decide (s.ipart e = 0)) (j.countP fun e => decide (s.ipart e = 2))] →
      t.jpart = (ghosts m me).jpart ++ (js ++ [j]).map fun j =>
        classify j.length (j.countP fun e => decide ((ghosts m me).ipart e = 0)) (j.countP fun e => decide ((ghosts m me).ipart e = 2)) := by
    intro t ht
    rw [ht, h.jpart, List.map_append, List.append_assoc, h.rest.2.2]
    rfl
  unfold borderJoint
  by_cases hc : At m j me ∧ ∃ e ∈ j, m.irank e ≠ me
  · simp only [hcond.2 hc, if_true]
    obtain ⟨⟨h1, h2, h3, h4⟩, h5, h6⟩ := linkAll_spec m (j.map m.irank) j { s with jpart := s.jpart ++ [1] }
    have hrk : ∀ r, r ∈ j.map m.irank ↔ At m j r := by
      intro r
      simp [At]
    constructor
    · exact ⟨h1.trans h.rest.1, h2.trans h.rest.2.1, h3.trans h.rest.2.2⟩
    · apply hjp
      rw [h4, hcond.2 hc]
    · intro e r
      rw [h5, h.conn, hrk]
      constructor
      · rintro ((h7 | ⟨j', hj', h7⟩) | ⟨h7, h8, h9⟩)
        · exact Or.inl h7
        · exact Or.inr ⟨j', by simp [hj'], h7⟩
        · exact Or.inr ⟨j, by simp, h7, hc.1, hc.2, h8, h9⟩
      · rintro (h7 | ⟨j', hj', h7, h8, h9, h10, h11⟩)
        · exact Or.inl (Or.inl h7)
        · rw [List.mem_append, List.mem_singleton] at hj'
          rcases hj' with hj' | rfl
          · exact Or.inl (Or.inr ⟨j', hj', h7, h8, h9, h10, h11⟩)
          · exact Or.inr ⟨h7, h10, h11⟩
    · intro r
      rw [h6]
      simp only [h.links, hrk]
      constructor
      · rintro ((h7 | ⟨j', hj', h7⟩) | ⟨e, he, h7, h8, h9⟩)
        · exact Or.inl h7
        · exact Or.inr ⟨j', by simp [hj'], h7⟩
        · have := (hz e he).1 h7
          exact Or.inr ⟨j, by simp, ⟨e, he, this⟩, h8, this ▸ h9⟩
      · rintro (h7 | ⟨j', hj', h7, h8, h9⟩)
        · exact Or.inl (Or.inl h7)
        · rw [List.mem_append, List.mem_singleton] at hj'
          rcases hj' with hj' | rfl
          · exact Or.inl (Or.inr ⟨j', hj', h7, h8, h9⟩)
          · obtain ⟨e, he, h10⟩ := h7
            exact Or.inr ⟨e, he, (hz e he).2 h10, h8, by rw [h10]; exact h9⟩
  · simp only [mt hcond.1 hc, if_false]
    constructor
    · exact h.rest
    · exact hjp _ rfl
    · intro e r
      rw [h.conn]
      constructor
      · rintro (h7 | ⟨j', hj', h7⟩)
        · exact Or.inl h7
        · exact Or.inr ⟨j', by simp [hj'], h7⟩
      · rintro (h7 | ⟨j', hj', h7, h8, h9, h10⟩)
        · exact Or.inl h7
        · rw [List.mem_append, List.mem_singleton] at hj'
          rcases hj' with hj' | rfl
          · exact Or.inr ⟨j', hj', h7, h8, h9, h10⟩
          · exact absurd ⟨h8, h9⟩ hc
    · intro r
      rw [h.links]
      constructor
      · rintro (h7 | ⟨j', hj', h7⟩)
        · exact Or.inl h7
        · exact Or.inr ⟨j', by simp [hj'], h7⟩
      · rintro (h7 | ⟨j', hj', h8, h9, h10⟩)
        · exact Or.inl h7
        · rw [List.mem_append, List.mem_singleton] at hj'
          rcases hj' with hj' | rfl
          · exact Or.inr ⟨j', hj', h8, h9, h10⟩
          · obtain ⟨e, he, her⟩ := h9
            exact absurd ⟨h8, e, he, by rw [her]; exact h10⟩ hc

theorem c_inv {m : Mesh} (hw : m.WF) (me : Nat) : CInv m me (ghosts m me) m.joints (compute m me) := by
  unfold compute
  have key : ∀ js : List (List Nat), (∀ j ∈ js, j ∈ m.joints) → CInv m me (ghosts m me) js (js.foldl (borderJoint m) (ghosts m me)) := by
    intro js
    induction js using List.reverseRecOn with
    | nil =>
      intro _
      constructor
      · exact ⟨rfl, rfl, rfl⟩
      all_goals simp
    | append_singleton js j ih =>
      intro hj
      rw [List.foldl_append, List.foldl_cons, List.foldl_nil]
      exact c_inv_step hw (ih fun j' hj' => hj j' (by simp [hj'])) (hj j (by simp))
  exact key m.joints fun _ h => h

end Verif.Parallel
