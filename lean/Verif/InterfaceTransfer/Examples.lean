import Verif.InterfaceTransfer.Values
import Mathlib.Tactic.NormNum

/-!
# C197: a case that meets the hypotheses

The interface consists of the elements 0 1, 1 2 and 2 3 on a straight line. In one adaptation 2 3 is refined and the vertex 1 is removed.
-/

namespace Verif.InterfaceTransfer

open Verif RefElem InterfaceOps Transfer

/-- Vertices 0 to 3 on the first axis, 4 above, 5 is the new vertex. -/
noncomputable def exPos : ℕ → ℝ × ℝ
  | 0 => (0, 0)
  | 1 => (1, 0)
  | 2 => (2, 0)
  | 3 => (4, 0)
  | 4 => (1, 1)
  | _ => (3, 0)

def exState : State :=
  ofExplicit [key 0 1, key 1 2, key 2 3, key 0 4, key 1 4, key 2 4, key 3 4] [(key 0 1, 7), (key 1 2, 7), (key 2 3, 7)] 5

def exEdges1 : List (List ℕ) := [key 0 1, key 1 2, key 0 4, key 1 4, key 2 4, key 3 4, key 5 2, key 5 3, key 5 4]

def exEdges2 : List (List ℕ) := [key 0 2, key 0 4, key 2 4, key 3 4, key 5 2, key 5 3, key 5 4]

/-- After the insertion. -/
def exMid : State := { (insertInInterface 2 exState [2, 3] 5).getD exState with edges := exEdges1, next := 6 }

instance (s : State) (a b : ℕ) : Decidable (Elem s a b) := inferInstanceAs (Decidable (_ ∈ _))

theorem ex_keys {k : List ℕ} : k ∈ keys exState ↔ k = key 0 1 ∨ k = key 1 2 ∨ k = key 2 3 := by
  unfold keys exState ofExplicit
  simp

theorem ex_elem {a b : ℕ} (h : Elem exState a b) :
    (a = 0 ∧ b = 1 ∨ a = 1 ∧ b = 0) ∨ (a = 1 ∧ b = 2 ∨ a = 2 ∧ b = 1) ∨ (a = 2 ∧ b = 3 ∨ a = 3 ∧ b = 2) := by
  rcases ex_keys.1 (elem_iff.1 h) with e | e | e <;> have := key_eq_iff.1 e <;> tauto

theorem ex_ok : Ok exState := by
  refine ⟨?_, by decide, ?_⟩
  · intro e he
    simp only [exState, ofExplicit, List.mem_cons, List.not_mem_nil, or_false] at he
    rcases he with rfl | rfl | rfl
    · exact ⟨0, 1, by decide, rfl, by decide, by decide, by decide⟩
    · exact ⟨1, 2, by decide, rfl, by decide, by decide, by decide⟩
    · exact ⟨2, 3, by decide, rfl, by decide, by decide, by decide⟩
  · intro e he
    simp only [exState, ofExplicit, List.mem_cons, List.not_mem_nil, or_false] at he
    rcases he with rfl | rfl | rfl | rfl | rfl | rfl | rfl
    · exact ⟨0, 1, by decide, rfl, by decide, by decide⟩
    · exact ⟨1, 2, by decide, rfl, by decide, by decide⟩
    · exact ⟨2, 3, by decide, rfl, by decide, by decide⟩
    · exact ⟨0, 4, by decide, rfl, by decide, by decide⟩
    · exact ⟨1, 4, by decide, rfl, by decide, by decide⟩
    · exact ⟨2, 4, by decide, rfl, by decide, by decide⟩
    · exact ⟨3, 4, by decide, rfl, by decide, by decide⟩

theorem axis {p q : ℝ} (h : p ≤ q) {x : ℝ × ℝ} (hx : x ∈ segment ℝ ((p, 0) : ℝ × ℝ) (q, 0)) : p ≤ x.1 ∧ x.1 ≤ q ∧ x.2 = 0 := by
  obtain ⟨r, s, hr, hs, hrs, rfl⟩ := hx
  have hs' : s = 1 - r := by linarith
  subst hs'
  simp only [Prod.fst_add, Prod.snd_add, Prod.smul_fst, Prod.smul_snd, smul_eq_mul]
  refine ⟨by nlinarith, by nlinarith, by ring⟩

theorem ex_proper : ProperInterface exPos exState := by
  have m01 : ∀ x ∈ points exPos (key 0 1), (0 : ℝ) ≤ x.1 ∧ x.1 ≤ 1 ∧ x.2 = 0 := by
    intro x hx; rw [points_key] at hx; exact axis (by norm_num) hx
  have m12 : ∀ x ∈ points exPos (key 1 2), (1 : ℝ) ≤ x.1 ∧ x.1 ≤ 2 ∧ x.2 = 0 := by
    intro x hx; rw [points_key] at hx; exact axis (by norm_num) hx
  have m23 : ∀ x ∈ points exPos (key 2 3), (2 : ℝ) ≤ x.1 ∧ x.1 ≤ 4 ∧ x.2 = 0 := by
    intro x hx; rw [points_key] at hx; exact axis (by norm_num) hx
  refine proper_of ex_ok ?_ ?_
  · intro k hk k' hk' v hv w hw e
    have hv' : v = 0 ∨ v = 1 ∨ v = 2 ∨ v = 3 := by
      rcases ex_keys.1 hk with rfl | rfl | rfl <;> have := mem_key.1 hv <;> omega
    have hw' : w = 0 ∨ w = 1 ∨ w = 2 ∨ w = 3 := by
      rcases ex_keys.1 hk' with rfl | rfl | rfl <;> have := mem_key.1 hw <;> omega
    have e1 := congrArg Prod.fst e
    rcases hv' with rfl | rfl | rfl | rfl <;> rcases hw' with rfl | rfl | rfl | rfl <;> first | rfl | (simp [exPos] at e1)
  · intro k hk k' hk' hne x hx hx'
    rcases ex_keys.1 hk with rfl | rfl | rfl <;> rcases ex_keys.1 hk' with rfl | rfl | rfl
    · exact absurd rfl hne
    · obtain ⟨a1, a2, a3⟩ := m01 x hx
      obtain ⟨b1, b2, b3⟩ := m12 x hx'
      exact ⟨1, by decide, by decide, Prod.ext (by simp only [exPos]; linarith) a3⟩
    · obtain ⟨a1, a2, a3⟩ := m01 x hx
      obtain ⟨b1, b2, b3⟩ := m23 x hx'
      linarith
    · obtain ⟨a1, a2, a3⟩ := m01 x hx'
      obtain ⟨b1, b2, b3⟩ := m12 x hx
      exact ⟨1, by decide, by decide, Prod.ext (by simp only [exPos]; linarith) a3⟩
    · exact absurd rfl hne
    · obtain ⟨a1, a2, a3⟩ := m12 x hx
      obtain ⟨b1, b2, b3⟩ := m23 x hx'
      exact ⟨2, by decide, by decide, Prod.ext (by simp only [exPos]; linarith) a3⟩
    · obtain ⟨a1, a2, a3⟩ := m01 x hx'
      obtain ⟨b1, b2, b3⟩ := m23 x hx
      linarith
    · obtain ⟨a1, a2, a3⟩ := m12 x hx'
      obtain ⟨b1, b2, b3⟩ := m23 x hx
      exact ⟨2, by decide, by decide, Prod.ext (by simp only [exPos]; linarith) a3⟩
    · exact absurd rfl hne

/-- The copy of the element `a b`. -/
noncomputable def exCopy (ident : List ℕ → ℕ) (a b : ℕ) : Segment ℝ := ⟨ident (key a b), exPos a, exPos b⟩

noncomputable def exReq (ident : List ℕ → ℕ) : IReq ℝ := ⟨.edge 2 3 true, 1 / 2, [exCopy ident 2 3]⟩

theorem ex_requests (ident : List ℕ → ℕ) : Requests ident exPos exState [exReq ident] [1] := by
  refine ⟨?_, by simp, ?_, ?_, by simp⟩
  · intro r hr
    rw [List.mem_singleton] at hr
    subst hr
    refine Or.inl ⟨2, 3, rfl, ?_, ?_, ?_, exCopy ident 2 3, ⟨rfl, 2, 3, rfl, rfl, rfl⟩, rfl⟩
    · decide
    · simp only [exReq]; norm_num
    · simp only [exReq]; norm_num
  · intro v hv
    rw [List.mem_singleton] at hv
    subst hv
    refine ⟨by decide, Or.inr ⟨0, 2, by decide, ?_, 1 / 2, by norm_num, by norm_num, ?_⟩⟩
    · intro x
      constructor
      · intro h
        have := ex_elem h
        omega
      · rintro (rfl | rfl) <;> decide
    · ext <;> simp only [exPos] <;> norm_num
  · intro v hv r hr a b e
    rw [List.mem_singleton] at hv hr
    subst hv; subst hr
    cases e
    exact ⟨by decide, by decide⟩

theorem ex_star : Star exEdges1 1 [0, 2, 4] := by
  refine ⟨by decide, fun o => ⟨?_, ?_⟩⟩
  · intro ho
    simp only [List.mem_cons, List.not_mem_nil, or_false] at ho
    rcases ho with rfl | rfl | rfl <;> decide
  · rintro ⟨ho, he⟩
    simp only [exEdges1, List.mem_cons, List.not_mem_nil, or_false] at he
    simp only [List.mem_cons, List.not_mem_nil, or_false]
    rcases he with e | e | e | e | e | e | e | e | e <;> have := key_eq_iff.1 e <;> omega

/-- The adaptation can run, and it does both. -/
theorem ex_adapts (ident : List ℕ → ℕ) : ∃ t, Adapts ident exPos exState [exReq ident] [1] t ∧ t.s.segs = [(key 2 5, 7), (key 3 5, 7), (key 0 2, 7)] := by
  let mid : IState ℝ := ⟨exMid, markAsRefined [] [key 5 2, key 5 3] [exCopy ident 2 3]⟩
  refine ⟨⟨{ (removeFromInterface mid.s 1 [0, 2, 4]).1 with edges := exEdges2 }, markAsRefined mid.comp [key 0 2] [exCopy ident 1 0, exCopy ident 1 2]⟩,
    ⟨mid, .cons ?_ .nil, .cons ?_ .nil⟩, ?_⟩
  · refine .interface (v := 5) (E' := exEdges1) (new := [key 5 2, key 5 3]) (s' := (insertInInterface 2 exState [2, 3] 5).getD exState)
      (by decide) ⟨by decide, [4], ?_, ?_⟩ ?_ ?_ ?_
    · intro c hc
      rw [List.mem_singleton] at hc
      subst hc
      exact ⟨key 0 4, by decide, by decide⟩
    · intro e
      simp only [exEdges1, exState, ofExplicit, List.mem_cons, List.not_mem_nil, or_false, exists_eq_left]
      constructor
      · rintro (rfl | rfl | rfl | rfl | rfl | rfl | rfl | rfl | rfl)
        · exact Or.inl ⟨by simp, by decide⟩
        · exact Or.inl ⟨by simp, by decide⟩
        · exact Or.inl ⟨by simp, by decide⟩
        · exact Or.inl ⟨by simp, by decide⟩
        · exact Or.inl ⟨by simp, by decide⟩
        · exact Or.inl ⟨by simp, by decide⟩
        · simp
        · simp
        · simp
      · rintro (⟨h | h | h | h | h | h | h, h'⟩ | h | h | h)
        · simp [h]
        · simp [h]
        · exact absurd h h'
        · simp [h]
        · simp [h]
        · simp [h]
        · simp [h]
        · simp [h]
        · simp [h]
        · simp [h]
    · obtain ⟨s', h1, -⟩ := insertInInterface_spec exState 2 3 5 (ex_ok.fresh (by decide))
      rw [h1]
      rfl
    · decide
    · ext <;> simp only [exPos] <;> norm_num
  · refine .join (star := [0, 2, 4]) (o := 0) (o' := 2) (E' := exEdges2) ?_ ex_star ?_ ⟨?_, ?_⟩ (by decide) ?_
    · show exMid.flag 1 = true; decide
    · rfl
    · show ∀ e ∈ exMid.edges, 1 ∉ e → e ∈ exEdges2; decide
    · intro e he
      have he' : e ∈ exEdges2 := he
      simp only [exEdges2, List.mem_cons, List.not_mem_nil, or_false] at he'
      rcases he' with rfl | rfl | rfl | rfl | rfl | rfl | rfl
      · refine ⟨by decide, Or.inr ⟨0, 2, by decide, rfl, ⟨key 0 4, ?_, by decide⟩, ⟨key 2 4, ?_, by decide⟩⟩⟩
        · show _ ∈ exEdges1; decide
        · show _ ∈ exEdges1; decide
      all_goals exact ⟨by decide, Or.inl (show _ ∈ exEdges1 by decide)⟩
    · rw [show ([0, 2, 4].filter fun x => isInterfaceBulk mid.s [1, x]) = [0, 2] from (by decide : ([0, 2, 4].filter fun x => isInterfaceBulk exMid [1, x]) = [0, 2])]
      exact .cons ⟨rfl, 1, 0, rfl, rfl, rfl⟩ (.cons ⟨rfl, 1, 2, rfl, rfl, rfl⟩ .nil)
  · show (removeFromInterface exMid 1 [0, 2, 4]).1.segs = _
    decide

/-- The hypotheses of the theorems on C197 in a case where one element is refined and two are joined. -/
example (ident : List ℕ → ℕ) : ∃ t, ProperInterface exPos exState ∧ Requests ident exPos exState [exReq ident] [1] ∧
    Adapts ident exPos exState [exReq ident] [1] t ∧
    Corners exPos (fun k => (exPos (k.headD 0), exPos (k.getLastD 0))) t.s ∧ Elem t.s 0 2 ∧ Elem t.s 2 5 ∧ Elem t.s 3 5 ∧ ¬ Elem t.s 2 3 := by
  obtain ⟨t, h1, h2⟩ := ex_adapts ident
  refine ⟨t, ex_proper, ex_requests ident, h1, ?_, ?_, ?_, ?_, ?_⟩
  · intro a b _
    show (fun k => (exPos (k.headD 0), exPos (k.getLastD 0))) (key a b) = _ ∨ (fun k => (exPos (k.headD 0), exPos (k.getLastD 0))) (key a b) = _
    rcases key_cases a b with e | e <;> rw [e]
    · exact Or.inl rfl
    · exact Or.inr rfl
  all_goals
    unfold Elem
    rw [h2]
    decide

end Verif.InterfaceTransfer
