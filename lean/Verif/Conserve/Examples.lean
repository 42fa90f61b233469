import Verif.Conserve.Props
import Verif.ConnComp.Props
import Mathlib.Data.Fin.VecNotation
import Mathlib.Tactic.NormNum
import Mathlib.Tactic.FinCases
import Mathlib.Logic.Equiv.Finset

/-!
# A concrete execution of `adapt(handle)`
-/

namespace Verif.Conserve

open Refine

theorem independent_of_side {p : Fin 3 → ℝ × ℝ} (h : Clip.side (p 0) (p 1) (p 2) ≠ 0) : AffineIndependent ℝ p := by
  rw [affineIndependent_iff]
  intro s w h0 h1 e he
  have key : ∀ u : Fin 3 → ℝ, ∑ i, u i = 0 → ∑ i, u i • p i = 0 → ∀ i, u i = 0 := by
    intro u k0 k1
    rw [Fin.sum_univ_three] at k0 k1
    have kx := congrArg Prod.fst k1
    have ky := congrArg Prod.snd k1
    simp only [Prod.fst_add, Prod.snd_add, Prod.smul_fst, Prod.smul_snd, smul_eq_mul, Prod.fst_zero, Prod.snd_zero] at kx ky
    unfold Clip.side at h
    have e1 : u 1 * ((p 1).1 - (p 0).1) + u 2 * ((p 2).1 - (p 0).1) = 0 := by linear_combination kx - (p 0).1 * k0
    have e2 : u 1 * ((p 1).2 - (p 0).2) + u 2 * ((p 2).2 - (p 0).2) = 0 := by linear_combination ky - (p 0).2 * k0
    have h2 : u 2 = 0 := by
      refine (mul_eq_zero.1 ?_).resolve_right h
      linear_combination ((p 1).1 - (p 0).1) * e2 - ((p 1).2 - (p 0).2) * e1
    have h1 : u 1 = 0 := by
      refine (mul_eq_zero.1 ?_).resolve_right h
      linear_combination ((p 2).2 - (p 0).2) * e1 - ((p 2).1 - (p 0).1) * e2
    intro i
    rcases fin_three i with rfl | rfl | rfl
    · linarith
    · exact h1
    · exact h2
  have := key (fun i => if i ∈ s then w i else 0) (by
    rw [Finset.sum_ite_mem, Finset.univ_inter, h0]) (by
    simp only [ite_smul, zero_smul]
    rw [Finset.sum_ite_mem, Finset.univ_inter, h1]) e
  simpa [he] using this

/-- The triangle with the corners `(0, 0)`, `(1, 0)`, `(0, 1)`. -/
noncomputable def tri : TMesh where
  cells := [![0, 1, 2]]
  pos v := if v = 1 then (1, 0) else if v = 2 then (0, 1) else (0, 0)

/-- Before: the triangle with a vertex at `(1/4, 1/4)`. -/
noncomputable def exBefore : TMesh := insertAt tri {0, 1, 2} 3 (1 / 4, 1 / 4)

/-- The middle of the edge from `(0, 0)` to `(1, 0)` is inserted. -/
noncomputable def exReq : Req (ℝ × ℝ) := refineEdge exBefore 0 1 (1 / 2 : ℝ)

noncomputable def exMiddle : TMesh := insertAt exBefore {0, 1} 4 exReq.point

/-- The vertex at `(1/4, 1/4)` is removed. -/
noncomputable def exAfter : TMesh := removeAt exMiddle 3 [![4, 1, 2], ![0, 4, 2]]

theorem cells_before : exBefore.cells = [![3, 1, 2], ![0, 3, 2], ![0, 1, 3]] := by
  unfold exBefore insertAt tri
  decide

theorem cells_middle : exMiddle.cells = [![3, 1, 2], ![0, 3, 2], ![4, 1, 3], ![0, 4, 3]] := by
  unfold exMiddle insertAt
  rw [cells_before]
  decide

theorem cells_after : exAfter.cells = [![4, 1, 2], ![0, 4, 2]] := by
  unfold exAfter removeAt
  rw [cells_middle]
  decide

theorem point_eq : exReq.point = (1 / 2, 0) := by
  unfold exReq refineEdge exBefore insertAt tri
  simp [Function.update]
  norm_num

theorem conforming_tri : Conforming ℝ tri := by
  refine ⟨?_, ?_⟩
  · intro c' hc'
    simp only [tri, List.mem_singleton] at hc'
    subst hc'
    refine independent_of_side ?_
    simp [tri, Clip.side]
  · intro c1 h1 c2 h2
    simp only [tri, List.mem_singleton] at h1 h2
    subst h1 h2
    rw [Set.inter_self, Set.inter_self, ← Set.range_comp]
    exact subset_rfl

theorem inside_before : Inside tri.pos {0, 1, 2} (1 / 4, 1 / 4) (fun v => if v = 0 then (1 / 2 : ℝ) else if v = 1 then 1 / 4 else if v = 2 then 1 / 4 else 0) := by
  refine ⟨⟨?_, ?_, ?_⟩, ?_, ?_⟩
  · intro v
    split_ifs <;> norm_num
  · intro v hv
    simp only [Finset.mem_insert, Finset.mem_singleton, not_or] at hv
    simp [hv.1, hv.2.1, hv.2.2]
  · norm_num
  · intro v hv
    simp only [Finset.mem_insert, Finset.mem_singleton] at hv
    rcases hv with rfl | rfl | rfl <;> norm_num
  · simp [tri]

theorem fresh_tri {m : ℕ} (h : 3 ≤ m) : Fresh tri m := by
  intro c hc i
  simp only [tri, List.mem_singleton] at hc
  subst hc
  fin_cases i <;> simp <;> omega

theorem conforming_before : Conforming ℝ exBefore :=
  conforming_insertAt inside_before (fresh_tri le_rfl) conforming_tri.inj (by decide) conforming_tri

theorem domain_before : domain ℝ exBefore = domain ℝ tri :=
  domain_insertAt inside_before (fresh_tri le_rfl) conforming_tri.inj

theorem edge_inside {M : TMesh} (h0 : M.pos 0 = (0, 0)) (h1 : M.pos 1 = (1, 0)) :
    Inside M.pos {0, 1} (1 / 2, 0) (fun v => if v = 0 then (1 / 2 : ℝ) else if v = 1 then 1 / 2 else 0) := by
  refine ⟨⟨?_, ?_, ?_⟩, ?_, ?_⟩
  · intro v
    split_ifs <;> norm_num
  · intro v hv
    simp only [Finset.mem_insert, Finset.mem_singleton, not_or] at hv
    simp [hv.1, hv.2]
  · norm_num
  · intro v hv
    simp only [Finset.mem_insert, Finset.mem_singleton] at hv
    rcases hv with rfl | rfl <;> norm_num
  · simp [h0, h1]

theorem fresh_before : Fresh exBefore 4 := by
  unfold Fresh
  rw [cells_before]
  decide

theorem domain_middle : domain ℝ exMiddle = domain ℝ tri := by
  rw [← domain_before]
  unfold exMiddle
  rw [point_eq]
  exact domain_insertAt (edge_inside (by simp [exBefore, insertAt, tri]) (by simp [exBefore, insertAt, tri])) fresh_before conforming_before.inj

/-- The triangle with the middle of the edge only: the elements after the removal are its elements. -/
noncomputable def halves : TMesh := insertAt tri {0, 1} 4 (1 / 2, 0)

theorem cells_halves : halves.cells = [![4, 1, 2], ![0, 4, 2]] := by
  unfold halves insertAt tri
  decide

theorem conforming_halves : Conforming ℝ halves :=
  conforming_insertAt (edge_inside (by simp [tri]) (by simp [tri])) (fresh_tri (by omega)) conforming_tri.inj (by decide) conforming_tri

theorem domain_halves : domain ℝ halves = domain ℝ tri :=
  domain_insertAt (edge_inside (by simp [tri]) (by simp [tri])) (fresh_tri (by omega)) conforming_tri.inj

theorem pos_middle {v : ℕ} (hv : v ≠ 3) : exMiddle.pos v = halves.pos v := by
  unfold exMiddle halves exBefore insertAt
  rw [point_eq]
  simp only [Function.update_apply]
  split_ifs <;> simp_all

theorem not_three {n : Fin 3 → ℕ} (hn : n ∈ [![4, 1, 2], ![0, 4, 2]]) (i : Fin 3) : n i ≠ 3 := by
  simp only [List.mem_cons, List.not_mem_nil, or_false] at hn
  rcases hn with rfl | rfl <;> fin_cases i <;> decide

theorem fills : Fills ℝ exMiddle 3 [![4, 1, 2], ![0, 4, 2]] := by
  have hpos : ∀ n ∈ [(![4, 1, 2] : Fin 3 → ℕ), ![0, 4, 2]], (fun i => exMiddle.pos (n i)) = fun i => halves.pos (n i) :=
    fun n hn => funext fun i => pos_middle (not_three hn i)
  refine ⟨?_, ?_, ?_, ?_, ?_⟩
  · unfold Link
    rw [cells_middle]
    decide
  · intro n hn
    rw [hpos n hn]
    exact conforming_halves.nondegenerate n (by rw [cells_halves]; exact hn)
  · intro _ n hn n' hn'
    unfold hull
    rw [hpos n hn, hpos n' hn']
    have himg : exMiddle.pos '' (Set.range n ∩ Set.range n') = halves.pos '' (Set.range n ∩ Set.range n') := by
      refine Set.image_congr ?_
      rintro _ ⟨⟨i, rfl⟩, -⟩
      exact pos_middle (not_three hn i)
    rw [himg]
    exact conforming_halves.meet n (by rw [cells_halves]; exact hn) n' (by rw [cells_halves]; exact hn')
  · intro _ y
    have h1 : (∃ n ∈ [(![4, 1, 2] : Fin 3 → ℕ), ![0, 4, 2]], y ∈ hull ℝ exMiddle n) ↔ y ∈ domain ℝ halves := by
      refine exists_congr fun n => ?_
      rw [cells_halves]
      refine and_congr_right fun hn => ?_
      unfold hull
      rw [hpos n hn]
    rw [h1, domain_halves, ← domain_middle]
    refine exists_congr fun c => and_congr_right fun hc => ?_
    have : ∃ i, c i = 3 := by
      rw [cells_middle] at hc
      simp only [List.mem_cons, List.not_mem_nil, or_false] at hc
      rcases hc with rfl | rfl | rfl | rfl
      · exact ⟨0, rfl⟩
      · exact ⟨1, rfl⟩
      · exact ⟨2, rfl⟩
      · exact ⟨2, rfl⟩
    exact (and_iff_right this).symm
  · intro _
    rw [cells_middle]
    decide

theorem inner_middle : Inner exMiddle 3 := by
  unfold Refine.Inner
  rw [cells_middle]
  decide

theorem proper_before : Proper exBefore := by
  refine ⟨conforming_before, ?_, ?_⟩
  · intro c hc
    rw [cells_before] at hc
    simp only [List.mem_cons, List.not_mem_nil, or_false] at hc
    rcases hc with rfl | rfl | rfl <;> simp [exBefore, insertAt, tri, Clip.side, Function.update] <;> norm_num
  · rw [cells_before]
    decide

def exZones : List (List ℕ) := [[2, 5], [0, 1, 2]]

def exNbr (k : ℕ) : List ℕ := [0, 1, 2].filter fun l => l ≠ k

theorem exConnected (z : List ℕ) (hz : ∀ k ∈ z, k ∈ [0, 1, 2]) : ConnComp.ZoneConnected exNbr z := by
  intro a _ b hb
  by_cases h : a = b
  · rw [h]
  · refine .single ⟨?_, hb⟩
    have := hz b hb
    simp only [exNbr, List.mem_filter]
    exact ⟨this, by simpa using fun e => h e.symm⟩

theorem exZones_ok : ConnComp.Zones [0, 1, 2] exNbr exZones := by
  refine ⟨by decide, by decide, fun z _ => exConnected _ fun k hk => ?_⟩
  rw [List.mem_filter, decide_eq_true_eq] at hk
  exact hk.2

def exIdent (S : Finset ℕ) : ℕ := 2 * Encodable.encode S

/-- While the new vertex 4 has no id, elements with this vertex get ids that no other elements have. -/
def exEarly (S : Finset ℕ) : ℕ := if 4 ∈ S then 2 * Encodable.encode S + 1 else exIdent S

/-- The hypotheses of the theorems C195 hold for the following execution: a triangle with three elements around a vertex; the middle of an edge on the boundary is inserted, and
the vertex is removed. Nothing of the old elements is left. -/
theorem exists_exec : ∃ x : Exec, x.Runs ∧ x.Sound ∧ x.before = exBefore ∧ x.after = exAfter ∧ x.ident = exIdent := by
  have hm : Components.Marking exZones (Components.start Components.init 0) (Components.sweep (Components.start Components.init 0) exZones).1 [0, 0] :=
    .done (by decide)
  have hclean : ConnComp.Clean [0, 1, 2] exZones Components.init := ⟨fun _ _ => ⟨rfl, rfl⟩, fun _ _ _ _ => rfl⟩
  have hnl : ∀ a n, n ∈ exNbr a → n ∈ [0, 1, 2] := fun a n h => (List.mem_filter.1 h).1
  obtain ⟨cs, hcs, -⟩ := (ConnComp.C57_exact [0, 1, 2] exNbr (fun _ => false) exZones Components.init _ [0, 0] exZones_ok hclean hnl (fun _ _ => rfl) hm).2 (by
    have : ConnComp.idsOf (ConnComp.gridOf (Components.sweep (Components.start Components.init 0) exZones).1 exNbr fun _ => false) [0, 1, 2] = [0, 0, 0] := by decide
    rw [this]
    intro l1 k l2 h
    match l1, h with
    | [], h => exact Or.inr (by simp)
    | [a], h => simp only [List.cons_append, List.nil_append, List.cons.injEq] at h; simp [← h.1, ← h.2.1]
    | [a, b], h => simp only [List.cons_append, List.nil_append, List.cons.injEq] at h; simp [← h.1, ← h.2.2.1]
    | a :: b :: c :: l, h =>
      have := congrArg List.length h
      simp at this)
  refine ⟨⟨exBefore, exMiddle, exAfter, [exReq], [3], [some 4], [[![4, 1, 2], ![0, 4, 2]]], fun _ => {0, 1}, exZones, [0, 1, 2], exNbr, Components.init, _, [0, 0], cs,
    exIdent, exEarly⟩, ⟨rfl, ?_, ?_, hm, hcs, ?_, ?_⟩, ⟨⟨?_, hnl, ?_, ?_, hclean, ?_, ?_, ?_, ?_, ?_, ?_, ?_⟩, proper_before⟩, rfl, rfl, rfl⟩
  · -- the zone of the request
    intro i r hi
    match i, hi with
    | 0, hi =>
      cases hi
      refine ⟨[2, 5], rfl, ?_⟩
      simp only [ZoneOf, exReq, refineEdge]
      rw [cells_before]
      refine ⟨fun k c hk => ?_, fun _ _ _ => trivial⟩
      match k, hk with
      | 0, hk => cases hk; decide
      | 1, hk => cases hk; decide
      | 2, hk => cases hk; decide
  · intro i v hi
    match i, hi with
    | 0, hi =>
      cases hi
      refine ⟨[0, 1, 2], rfl, ?_, ?_⟩
      · rw [cells_before]
        intro k c hk
        match k, hk with
        | 0, hk => cases hk; decide
        | 1, hk => cases hk; decide
        | 2, hk => cases hk; decide
      · rw [cells_before]
        decide
  · refine Inserts.cons (Step.edge (c := ![0, 1, 3]) ?_ (by decide) ⟨0, rfl⟩ ⟨1, rfl⟩ fresh_before) fresh_before ?_ Inserts.nil
    · rw [cells_before]
      simp
    · refine ⟨![0, 4, 3], ?_, 1, rfl⟩
      change _ ∈ exMiddle.cells
      rw [cells_middle]
      simp
  · refine Removes.cons fills ?_ (by decide) Removes.nil
    intro n hn
    have e : ∀ i, exMiddle.pos (n i) = halves.pos (n i) := fun i => pos_middle (not_three hn i)
    rw [e, e, e]
    simp only [List.mem_cons, List.not_mem_nil, or_false] at hn
    rcases hn with rfl | rfl <;> simp [halves, insertAt, tri, Clip.side, Function.update] <;> norm_num
  · change ∀ k, k ∈ [0, 1, 2] ↔ k < exBefore.cells.length
    rw [cells_before]
    intro k
    simp only [List.mem_cons, List.not_mem_nil, or_false, List.length_cons, List.length_nil]
    omega
  · intro k l c c' hk hl hkl _
    change exBefore.cells[l]? = some c' at hl
    have := (List.getElem?_eq_some_iff.1 hl).1
    rw [cells_before] at this
    simp only [List.length_cons, List.length_nil] at this
    change l ∈ exNbr k
    simp only [exNbr, List.mem_filter, List.mem_cons, List.not_mem_nil, or_false]
    exact ⟨by omega, by simpa using fun e => hkl e.symm⟩
  · intro v _
    exact exConnected _ fun k hk => (List.mem_filter.1 hk).1
  · intro r hr e he
    rw [List.mem_singleton] at hr
    subst hr
    exact ⟨![0, 1, 3], by change _ ∈ exBefore.cells; rw [cells_before]; simp, 0, 1, by decide, 1 / 2, by norm_num, by norm_num, rfl⟩
  · intro pre r post new M1 h _ hr
    have : r ∈ [exReq] := by
      change [exReq] = _ at h
      rw [h]
      simp
    rw [List.mem_singleton] at this
    subst this
    simp [exReq, refineEdge] at hr
  · intro v hv
    rw [List.mem_singleton] at hv
    subst hv
    exact ⟨![3, 1, 2], by change _ ∈ exBefore.cells; rw [cells_before]; simp, 0, rfl⟩
  · intro pre v post news M1 h hr
    change [3] = _ at h
    match pre, h with
    | [], h =>
      obtain ⟨rfl, -⟩ := List.cons.inj h
      cases hr
      exact inner_middle
    | a :: pre, h =>
      have := congrArg List.length h
      simp at this
  · intro S T h
    exact Encodable.encode_injective (by simp only [exIdent] at h; omega)
  · intro S hS
    change exEarly S = exIdent S
    have : 4 ∉ S := fun h => hS 4 h (by simp)
    simp [exEarly, this]
  · intro N hN n hn c hc h
    change exEarly _ = exIdent _ at h
    rw [List.mem_singleton] at hN
    subst hN
    have h4 : 4 ∈ Finset.univ.image n := by
      simp only [List.mem_cons, List.not_mem_nil, or_false] at hn
      rcases hn with rfl | rfl <;> decide
    simp only [exEarly, exIdent, h4, if_true] at h
    omega

example : ∃ x : Exec, x.Runs ∧ x.Sound ∧ x.before.cells = [![3, 1, 2], ![0, 3, 2], ![0, 1, 3]] ∧ x.after.cells = [![4, 1, 2], ![0, 4, 2]] := by
  obtain ⟨x, h1, h2, h3, h4, -⟩ := exists_exec
  exact ⟨x, h1, h2, h3 ▸ cells_before, h4 ▸ cells_after⟩

end Verif.Conserve
