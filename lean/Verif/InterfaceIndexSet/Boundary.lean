import Verif.InterfaceIndexSet.Neighbours

/-!
# C51: boundary segment indices of the interface grid
-/

namespace Verif.InterfaceIndexSet

open Verif RefElem IndexSet

theorem numberSegments_aux (bnd : List (List Nat)) (hd : bnd.Pairwise fun e f => ¬ e.Perm f) :
    (numberSegments bnd).2 = bnd.length ∧ (numberSegments bnd).1 = bnd.zipIdx.map (fun p => (sortIds p.1, p.2)) := by
  induction bnd using List.reverseRecOn with
  | nil => exact ⟨rfl, rfl⟩
  | append_singleton bnd e ih =>
    obtain ⟨h1, h2, h3⟩ := List.pairwise_append.1 hd
    obtain ⟨i1, i2⟩ := ih h1
    have hstep : numberSegments (bnd ++ [e]) =
        (Map.insert (numberSegments bnd).1 (sortIds e) (numberSegments bnd).2, (numberSegments bnd).2 + 1) := by
      unfold numberSegments
      rw [List.foldl_append]
      rfl
    rw [hstep, i1]
    have hnone : Map.find (numberSegments bnd).1 (sortIds e) = none := by
      rw [Map.find_none_iff, i2]
      simp only [List.map_map, List.mem_map, Function.comp_apply, not_exists, not_and]
      rintro ⟨f, k⟩ hm he
      simp only at he
      refine h3 f ?_ e (by simp) ((Segments.sort_eq_iff _ _).1 he)
      have := List.mem_zipIdx hm
      simp only [Nat.zero_add, Nat.sub_zero] at this
      rw [this.2.2]
      exact List.getElem_mem _
    refine ⟨by simp, ?_⟩
    unfold Map.insert
    rw [hnone]
    simp only
    rw [i2, List.zipIdx_append]
    simp

theorem numberSegments_spec (bnd : List (List Nat)) (hd : bnd.Pairwise fun e f => ¬ e.Perm f) :
    numBoundarySegments (numberSegments bnd).1 = bnd.length ∧
    ∀ k (h : k < bnd.length), boundarySegmentIndex (numberSegments bnd).1 bnd[k] = k := by
  obtain ⟨-, h2⟩ := numberSegments_aux bnd hd
  unfold numBoundarySegments boundarySegmentIndex
  rw [h2]
  refine ⟨by simp, ?_⟩
  intro k hk
  have hnd : ((bnd.zipIdx.map (fun p => (sortIds p.1, p.2))).map Prod.fst).Nodup := by
    rw [List.map_map]
    have : (Prod.fst ∘ fun p : List Nat × Nat => (sortIds p.1, p.2)) = sortIds ∘ Prod.fst := rfl
    rw [this, ← List.map_map, List.zipIdx_map_fst, List.Nodup, List.pairwise_map]
    exact hd.imp (fun {a b} hab he => hab ((Segments.sort_eq_iff _ _).1 he))
  have hm : (sortIds bnd[k], k) ∈ bnd.zipIdx.map (fun p => (sortIds p.1, p.2)) := by
    refine List.mem_map.2 ⟨(bnd[k], k), ?_, rfl⟩
    rw [List.mem_zipIdx_iff_getElem?]
    exact List.getElem?_eq_getElem hk
  rw [Map.find_of_mem hnd hm]

/-- **C51** If every interface element has at most one boundary facet, the boundary intersections are numbered
`0, ..., numBoundarySegments()-1`. An element with several boundary facets gets one number for all of
them and numbers are lost: that is C149. -/
theorem C51_numbered {d : Nat} (hd : d = 2 ∨ d = 3) {els : List (List Nat)} (hE : Elements d els) {s : State}
    (hs : update d els = some s)
    (hone : ∀ e ∈ els, ∀ i < d, ∀ j < d, onBoundary d s e i → onBoundary d s e j → i = j) :
    IsNumbering (fun p : List Nat × Nat => some (boundarySegmentIndex (numberSegments (boundaryElements d s els)).1 p.1))
      {p | p.1 ∈ els ∧ p.2 < d ∧ onBoundary d s p.1 p.2}
      (numBoundarySegments (numberSegments (boundaryElements d s els)).1) := by
  obtain ⟨s', hs', h⟩ := update_inv hd els hE
  rw [hs] at hs'; cases hs'
  -- the elements with a boundary facet, each once
  have hfm : ∀ e, (List.range d).filterMap (fun i => if isBoundary d s e i then some e else none) =
      List.replicate ((List.range d).countP (isBoundary d s e)) e := by
    intro e
    induction List.range d with
    | nil => rfl
    | cons i l ih =>
      rw [List.filterMap_cons, List.countP_cons]
      cases hb : isBoundary d s e i with
      | false => simp only [Bool.false_eq_true, if_false, Nat.add_zero]; exact ih
      | true => simp only [if_true]; rw [ih, List.replicate_succ]
  have hbd : ∀ e i, onBoundary d s e i ↔ isBoundary d s e i = true := by
    intro e i
    unfold onBoundary isBoundary
    cases localIndexMap d s e i <;> simp
  have hmem : ∀ e, e ∈ boundaryElements d s els ↔ e ∈ els ∧ ∃ i < d, onBoundary d s e i := by
    intro e
    unfold boundaryElements
    rw [List.mem_flatMap]
    constructor
    · rintro ⟨f, hf, hm⟩
      rw [hfm, List.mem_replicate] at hm
      obtain ⟨h0, rfl⟩ := hm
      have := List.countP_pos_iff.1 (Nat.pos_of_ne_zero h0)
      obtain ⟨i, hi, hb⟩ := this
      exact ⟨hf, i, List.mem_range.1 hi, (hbd e i).2 hb⟩
    · rintro ⟨he, i, hi, hb⟩
      refine ⟨e, he, ?_⟩
      rw [hfm, List.mem_replicate]
      refine ⟨Nat.ne_of_gt (List.countP_pos_iff.2 ⟨i, List.mem_range.2 hi, (hbd e i).1 hb⟩), rfl⟩
  have hcount : ∀ e ∈ els, ((List.range d).countP (isBoundary d s e)) ≤ 1 := by
    intro e he
    rw [List.countP_eq_length_filter]
    have hnd := List.nodup_range (n := d).filter (isBoundary d s e)
    by_contra hgt
    rw [not_le] at hgt
    obtain ⟨a, b, t, hab⟩ : ∃ a b t, (List.range d).filter (isBoundary d s e) = a :: b :: t := by
      match hq : (List.range d).filter (isBoundary d s e), hgt with
      | a :: b :: t, _ => exact ⟨a, b, t, rfl⟩
    rw [hab] at hnd
    have ha : a ∈ (List.range d).filter (isBoundary d s e) := by rw [hab]; simp
    have hb : b ∈ (List.range d).filter (isBoundary d s e) := by rw [hab]; simp
    rw [List.mem_filter, List.mem_range] at ha hb
    have := hone e he a ha.1 b hb.1 ((hbd e a).2 ha.2) ((hbd e b).2 hb.2)
    subst this
    simp at hnd
  have hpair : (boundaryElements d s els).Pairwise fun e f => ¬ e.Perm f := by
    unfold boundaryElements
    rw [List.pairwise_flatMap]
    constructor
    · intro e he
      rw [hfm]
      have hc := hcount e he
      generalize (List.range d).countP _ = n at hc
      match n, hc with
      | 0, _ => simp
      | 1, _ => simp
    · refine hE.distinct.imp ?_
      intro e f hef x hx y hy
      rw [hfm, List.mem_replicate] at hx hy
      rw [hx.2, hy.2]
      exact hef
  obtain ⟨hn, hk⟩ := numberSegments_spec _ hpair
  rw [hn]
  refine ⟨?_, ?_, ?_⟩
  · rintro ⟨e, i⟩ ⟨he, hi, hb⟩
    obtain ⟨k, hk', rfl⟩ := List.getElem_of_mem ((hmem e).2 ⟨he, i, hi, hb⟩)
    exact ⟨k, hk', congrArg some (hk k hk')⟩
  · intro k hk'
    obtain ⟨he, i, hi, hb⟩ := (hmem _).1 (List.getElem_mem hk')
    exact ⟨(_, i), ⟨he, hi, hb⟩, congrArg some (hk k hk')⟩
  · rintro ⟨e, i⟩ ⟨he, hi, hb⟩ ⟨e', i'⟩ ⟨he', hi', hb'⟩ heq
    simp only [Option.some.injEq] at heq
    obtain ⟨k, hk1, rfl⟩ := List.getElem_of_mem ((hmem e).2 ⟨he, i, hi, hb⟩)
    obtain ⟨k', hk2, rfl⟩ := List.getElem_of_mem ((hmem e').2 ⟨he', i', hi', hb'⟩)
    rw [hk k hk1, hk k' hk2] at heq
    subst heq
    exact Prod.ext rfl (hone _ he i hi i' hi' hb hb')

/-- Non-vacuity: the ends of the three branches of `exStar`. -/
example : boundaryElements 2 exStarState exStar = exStar ∧
    (numberSegments exStar).1.map Prod.snd = [0, 1, 2] := by decide

/-- **C149** is false: the two ends of an isolated segment are different boundary intersections with equal index. -/
theorem C149_equal_false : ∃ s, update 2 [[0, 1]] = some s ∧ onBoundary 2 s [0, 1] 0 ∧ onBoundary 2 s [0, 1] 1 ∧
    numBoundarySegments (numberSegments (boundaryElements 2 s [[0, 1]])).1 = 1 := by
  refine ⟨_, rfl, ⟨_, rfl, by decide⟩, ⟨_, rfl, by decide⟩, by decide⟩

/-- **C149** is false: with an isolated segment and a chain of two segments there are indices not below
`numBoundarySegments()`. -/
theorem C149_range_false : Elements 2 [[0, 1], [2, 3], [3, 4]] ∧ ∃ s, update 2 [[0, 1], [2, 3], [3, 4]] = some s ∧
    onBoundary 2 s [3, 4] 1 ∧
    boundarySegmentIndex (numberSegments (boundaryElements 2 s [[0, 1], [2, 3], [3, 4]])).1 [3, 4] = 3 ∧
    numBoundarySegments (numberSegments (boundaryElements 2 s [[0, 1], [2, 3], [3, 4]])).1 = 3 := by
  refine ⟨⟨by decide, by decide, by decide⟩, _, rfl, ⟨_, rfl, by decide⟩, by decide, by decide⟩

end Verif.InterfaceIndexSet
