import Mathlib.Data.List.Nodup
import Verif.ConnComp.Model

/-!
# C25: contents of a connected component
-/

namespace Verif.ConnComp

open Verif

/-! ## Specification -/

/-- `n` can be reached from `e` by facet neighbours that are old and carry the component number `k`. -/
def Reach (g : Grid) (k : Nat) : Nat → Nat → Prop :=
  Relation.ReflTransGen (fun a b => b ∈ g.nbr a ∧ g.num b = k ∧ g.isNew b = false)

/-! ## Proofs -/

theorem insertN_sound {g : Grid} {k f : Nat} {es ns es' : List Nat} (h : insertN g k f es ns = some es') :
    Insert g k es ns es' := by
  induction f generalizing es ns es' with
  | zero => simp [insertN] at h
  | succ f ih =>
    cases ns with
    | nil =>
      simp only [insertN, Option.some.injEq] at h
      exact h ▸ .nil
    | cons n ns =>
      simp only [insertN] at h
      split at h
      · rename_i hc
        rw [Option.bind_eq_some_iff] at h
        obtain ⟨es1, h1, h2⟩ := h
        exact .take ⟨hc.1, hc.2.1⟩ hc.2.2 (ih h1) (ih h2)
      · rename_i hc
        refine .skip ?_ (ih h)
        rintro ⟨⟨h1, h2⟩, h3⟩
        exact hc ⟨h1, h2, h3⟩

theorem insert_unique {g : Grid} {k : Nat} {es ns es' : List Nat} (h : Insert g k es ns es') {es'' : List Nat}
    (h' : Insert g k es ns es'') : es'' = es' := by
  induction h generalizing es'' with
  | nil => cases h'; rfl
  | skip hn _ ih =>
    cases h' with
    | skip _ h' => exact ih h'
    | take h1 h2 _ _ => exact absurd ⟨h1, h2⟩ hn
  | take h1 h2 _ _ ih1 ih2 =>
    cases h' with
    | skip hn _ => exact absurd ⟨h1, h2⟩ hn
    | take _ _ ha hb =>
      have := ih1 ha
      subst this
      exact ih2 hb

theorem insert_prefix {g : Grid} {k : Nat} {es ns es' : List Nat} (h : Insert g k es ns es') : ∃ l, es' = es ++ l := by
  induction h with
  | nil => exact ⟨[], by simp⟩
  | skip _ _ ih => exact ih
  | take _ _ _ _ ih1 ih2 =>
    obtain ⟨l1, h1⟩ := ih1
    obtain ⟨l2, h2⟩ := ih2
    rename_i n _ _ _ _ _ _ _
    exact ⟨n :: l1 ++ l2, by rw [h2, h1]; simp⟩

theorem insert_nodup {g : Grid} {k : Nat} {es ns es' : List Nat} (h : Insert g k es ns es') (hnd : es.Nodup) :
    es'.Nodup := by
  induction h with
  | nil => exact hnd
  | skip _ _ ih => exact ih hnd
  | take _ hn _ _ ih1 ih2 =>
    apply ih2
    apply ih1
    rw [List.nodup_append]
    refine ⟨hnd, by simp, ?_⟩
    intro a ha b hb
    simp only [List.mem_singleton] at hb
    subst hb
    exact fun h => hn (h ▸ ha)

theorem insert_sub {g : Grid} {k : Nat} {es ns es' : List Nat} (h : Insert g k es ns es') {x : Nat} (hx : x ∈ es) :
    x ∈ es' := by
  obtain ⟨l, rfl⟩ := insert_prefix h
  exact List.mem_append_left _ hx

/-- Everything inserted is reachable from a neighbour that qualifies. -/
theorem insert_reach {g : Grid} {k : Nat} {es ns es' : List Nat} (h : Insert g k es ns es') (x : Nat) (hx : x ∈ es') :
    x ∈ es ∨ ∃ n ∈ ns, joins g k n ∧ Reach g k n x := by
  induction h with
  | nil => exact Or.inl hx
  | skip _ _ ih =>
    rcases ih hx with h | ⟨n, hn, h⟩
    · exact Or.inl h
    · exact Or.inr ⟨n, List.mem_cons_of_mem _ hn, h⟩
  | take hj hn _ _ ih1 ih2 =>
    rcases ih2 hx with h | ⟨m, hm, h⟩
    · rcases ih1 h with h | ⟨m, hm, hjm, hr⟩
      · rcases List.mem_append.1 h with h | h
        · exact Or.inl h
        · simp only [List.mem_singleton] at h
          subst h
          exact Or.inr ⟨_, List.mem_cons_self, hj, Relation.ReflTransGen.refl⟩
      · exact Or.inr ⟨_, List.mem_cons_self, hj, Relation.ReflTransGen.head ⟨hm, hjm.1, hjm.2⟩ hr⟩
    · exact Or.inr ⟨m, List.mem_cons_of_mem _ hm, h⟩

/-- Afterwards the neighbours that qualify are in the component, and so are those of everything inserted. -/
theorem insert_closed {g : Grid} {k : Nat} {es ns es' : List Nat} (h : Insert g k es ns es') :
    (∀ n ∈ ns, joins g k n → n ∈ es') ∧
      ∀ x ∈ es', x ∉ es → ∀ n ∈ g.nbr x, joins g k n → n ∈ es' := by
  induction h with
  | nil => exact ⟨by simp, fun x hx hx' => absurd hx hx'⟩
  | skip hn hrest ih =>
    refine ⟨?_, ih.2⟩
    intro n hn' hj
    rcases List.mem_cons.1 hn' with rfl | hn'
    · exact insert_sub hrest (by
        by_contra hc
        exact hn ⟨hj, hc⟩)
    · exact ih.1 n hn' hj
  | take hj hn hrec hrest ih1 ih2 =>
    refine ⟨?_, ?_⟩
    · intro m hm hjm
      rcases List.mem_cons.1 hm with rfl | hm
      · exact insert_sub hrest (insert_sub hrec (by simp))
      · exact ih2.1 m hm hjm
    · rename_i es n ns es1 es'
      intro x hx hxe m hm hjm
      by_cases h1 : x ∈ es1
      · by_cases h2 : x = n
        · subst h2
          exact insert_sub hrest (ih1.1 m hm hjm)
        · exact insert_sub hrest (ih1.2 x h1 (by simp [hxe, h2]) m hm hjm)
      · exact ih2.2 x hx h1 m hm hjm

/-- The recursion ends if the elements with the component number are finitely many. -/
theorem insert_terminates (g : Grid) (k : Nat) (cells : List Nat) (hfin : ∀ n, joins g k n → n ∈ cells) (m : Nat)
    (es ns : List Nat) (hm : (cells.filter (· ∉ es)).length ≤ m) : ∃ es', Insert g k es ns es' := by
  induction m generalizing es ns with
  | zero =>
    induction ns with
    | nil => exact ⟨_, .nil⟩
    | cons n ns ih =>
      obtain ⟨es', h⟩ := ih
      refine ⟨es', .skip ?_ h⟩
      rintro ⟨hj, hn⟩
      have : n ∈ cells.filter (· ∉ es) := by simp [hfin n hj, hn]
      have := List.length_pos_of_mem this
      omega
  | succ m ih =>
    induction ns generalizing es with
    | nil => exact ⟨_, .nil⟩
    | cons n ns ihn =>
      by_cases hc : joins g k n ∧ n ∉ es
      · have hlt : (cells.filter (· ∉ es ++ [n])).length < (cells.filter (· ∉ es)).length := by
          have hsub : (cells.filter (· ∉ es ++ [n])) = (cells.filter (· ∉ es)).filter (· ≠ n) := by
            rw [List.filter_filter]
            congr 1
            funext x
            simp [and_comm]
          rw [hsub]
          apply List.length_filter_lt_length_iff_exists.2
          exact ⟨n, by simp [hfin n hc.1, hc.2], by simp⟩
        obtain ⟨es1, h1⟩ := ih (es ++ [n]) (g.nbr n) (by omega)
        have hle : (cells.filter (· ∉ es1)).length ≤ (cells.filter (· ∉ es ++ [n])).length := by
          apply List.Sublist.length_le
          apply List.monotone_filter_right
          intro a ha
          simp only [decide_eq_true_eq] at ha ⊢
          exact fun h => ha (insert_sub h1 h)
        obtain ⟨es', h2⟩ := ih es1 ns (by omega)
        exact ⟨es', .take hc.1 hc.2 h1 h2⟩
      · obtain ⟨es', h⟩ := ihn es hm
        exact ⟨es', .skip hc h⟩

theorem insert_exists (g : Grid) (k : Nat) (cells : List Nat) (hfin : ∀ a n, n ∈ g.nbr a → n ∈ cells) (es ns : List Nat)
    (hns : ∀ n ∈ ns, n ∈ cells) : ∃ es', Insert g k es ns es' := by
  obtain ⟨es', h⟩ := insert_terminates
    { g with nbr := g.nbr, isNew := fun n => if n ∈ cells then g.isNew n else true } k cells
    (by
      rintro n ⟨-, h⟩
      by_contra hc
      simp [hc] at h) _ es ns (Nat.le_refl _)
  refine ⟨es', ?_⟩
  have key : ∀ es ns es', Insert { g with nbr := g.nbr, isNew := fun n => if n ∈ cells then g.isNew n else true } k
      es ns es' → (∀ n ∈ ns, n ∈ cells) → Insert g k es ns es' := by
    intro es ns es' h
    induction h with
    | nil => exact fun _ => .nil
    | skip hn _ ih =>
      intro hns
      refine .skip ?_ (ih (fun n hn => hns n (List.mem_cons_of_mem _ hn)))
      rintro ⟨⟨h1, h2⟩, h3⟩
      exact hn ⟨⟨h1, by simp [hns _ List.mem_cons_self, h2]⟩, h3⟩
    | take hj hn _ _ ih1 ih2 =>
      intro hns
      refine .take ⟨hj.1, ?_⟩ hn (ih1 (hfin _)) (ih2 (fun n hn => hns n (List.mem_cons_of_mem _ hn)))
      have := hj.2
      simpa [hns _ List.mem_cons_self] using this
  exact key _ _ _ h hns

/-- C25: on a finite grid the component built from an element exists, is unique, contains every element at most once, and
contains exactly the element and what can be reached from it by old facet neighbours with the same component number. -/
theorem C25_component (g : Grid) (cells : List Nat) (hfin : ∀ a n, n ∈ g.nbr a → n ∈ cells) (e : Nat) :
    ∃ es, Construct g e es ∧ (∀ es', Construct g e es' → es' = es) ∧ es.Nodup ∧
      ∀ x, x ∈ es ↔ Reach g (g.num e) e x := by
  have hex : ∃ es, Construct g e es := insert_exists g _ cells hfin _ _ (hfin e)
  obtain ⟨es, h⟩ := hex
  refine ⟨es, h, fun es' h' => insert_unique h h', insert_nodup h (by simp), ?_⟩
  obtain ⟨hc1, hc2⟩ := insert_closed h
  intro x
  constructor
  · intro hx
    rcases insert_reach h x hx with hx | ⟨n, hn, hj, hr⟩
    · simp only [List.mem_singleton] at hx
      subst hx
      exact Relation.ReflTransGen.refl
    · exact Relation.ReflTransGen.head ⟨hn, hj.1, hj.2⟩ hr
  · intro hr
    induction hr with
    | refl => exact insert_sub h (by simp)
    | tail _ hab ih =>
      rename_i a b _
      by_cases ha : a = e
      · subst ha
        exact hc1 b hab.1 hab.2
      · exact hc2 a ih (by simpa using ha) b hab.1 hab.2

/-- A strip of six triangles: 0, 1, 2 and 4, 5 carry the number 1, but 4 and 5 are cut off by 3. -/
def exStrip : Grid where
  nbr n := [n - 1, n + 1].filter (fun m => m ≠ n ∧ m < 6)
  num n := if n = 3 then 2 else if n < 6 then 1 else 0
  isNew _ := false
  vanish n := n < 6

example : ∀ a n, n ∈ exStrip.nbr a → n ∈ [0, 1, 2, 3, 4, 5] := by
  intro a n h
  simp only [exStrip, List.mem_filter, decide_eq_true_eq] at h
  have := h.2.2
  simp only [List.mem_cons, List.not_mem_nil, or_false]
  omega

example : Construct exStrip 1 [1, 0, 2] := insertN_sound (f := 10) (by decide)

/-- C25 for `update`: adding an element to a component that is closed under its neighbours adds exactly what can be reached
from that element. -/
theorem C25_update (g : Grid) (k : Nat) (es es' : List Nat) (e : Nat) (hnd : es.Nodup) (he : e ∉ es)
    (hcl : ∀ x ∈ es, ∀ n ∈ g.nbr x, g.num n = k → g.isNew n = false → n ∈ es)
    (h : Update g k es e es') : es'.Nodup ∧ ∀ x, x ∈ es' ↔ x ∈ es ∨ Reach g k e x := by
  obtain ⟨hc1, hc2⟩ := insert_closed h
  refine ⟨insert_nodup h ?_, ?_⟩
  · rw [List.nodup_append]
    refine ⟨hnd, by simp, ?_⟩
    intro a ha b hb
    simp only [List.mem_singleton] at hb
    subst hb
    exact fun hab => he (hab ▸ ha)
  · intro x
    constructor
    · intro hx
      rcases insert_reach h x hx with hx | ⟨n, hn, hj, hr⟩
      · rcases List.mem_append.1 hx with hx | hx
        · exact Or.inl hx
        · simp only [List.mem_singleton] at hx
          subst hx
          exact Or.inr Relation.ReflTransGen.refl
      · exact Or.inr (Relation.ReflTransGen.head ⟨hn, hj.1, hj.2⟩ hr)
    · rintro (hx | hr)
      · exact insert_sub h (List.mem_append_left _ hx)
      · induction hr with
        | refl => exact insert_sub h (by simp)
        | tail _ hab ih =>
          rename_i a b _
          by_cases ha : a = e
          · subst ha
            exact hc1 b hab.1 hab.2
          · by_cases ha' : a ∈ es
            · exact insert_sub h (List.mem_append_left _ (hcl a ha' b hab.1 hab.2.1 hab.2.2))
            · exact hc2 a ih (by simp [ha, ha']) b hab.1 hab.2

/-- The part of the strip behind triangle 3 joins the component of triangle 1. -/
example : Update exStrip 1 [1, 0, 2] 4 [1, 0, 2, 4, 5] := insertN_sound (f := 10) (by decide)

end Verif.ConnComp
