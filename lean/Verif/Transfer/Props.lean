import Verif.Transfer.Model
import Verif.Clip.Measure

/-!
# C81, C82, C83: transfer of data during adaptation
-/

namespace Verif.Transfer

set_option linter.unusedSectionVars false

variable {K : Type} [Field K] [LinearOrder K] [IsStrictOrderedRing K] {σ : Type}

/-! ## Specification -/

/-- The parts of a leaf element: its old elements, each with the triangles of the cut set. -/
def parts (cut : Tri K → Tri K → List (Tri K)) (l : Leaf K) : List (Element K × Tri K) :=
  l.children.flatMap fun o => (cut o.corners l.corners).map fun m => (o, m)

/-- The calls for one part of a new element: the data of the old element is prolonged to the triangle, then restricted from
the triangle to the new element. -/
def callsFor (l : Leaf K) (first : Bool) (p : Element K × Tri K) : List (Call K) :=
  [.prolong p.1 ⟨p.2, p.1⟩ true, .restrict l.toElement ⟨p.2, l.toElement⟩ first]

/-- The calls for a new element: only the first part is restricted with `initialize`. -/
def callsOf (cut : Tri K → Tri K → List (Tri K)) (l : Leaf K) : List (Call K) :=
  match parts cut l with
  | [] => []
  | p :: ps => callsFor l true p ++ ps.flatMap (callsFor l false)

/-- What a handle does when it gets a call. -/
def Handle.apply (h : Handle K σ) (s : σ) : Call K → σ
  | .prolong f m i => h.prolongLocal f m i s
  | .restrict f m i => h.restrictLocal f m i s

/-! ## Proofs -/

/-- One step for a part. -/
def partStep (h : Handle K σ) (e : Element K) (s : σ × Bool) (p : Element K × Tri K) : σ × Bool := middleStep h p.1 e s p.2

theorem foldl_parts (cut : Tri K → Tri K → List (Tri K)) (h : Handle K σ) (l : Leaf K) (s : σ × Bool) :
    l.children.foldl (oldStep cut h l.toElement) s = (parts cut l).foldl (partStep h l.toElement) s := by
  unfold parts
  generalize l.children = cs
  induction cs generalizing s with
  | nil => rfl
  | cons o cs ih =>
    rw [List.foldl_cons, List.flatMap_cons, List.foldl_append, ← ih, List.foldl_map]
    rfl

theorem foldl_calls (h : Handle K σ) (l : Leaf K) (ps : List (Element K × Tri K)) (s : σ) :
    ps.foldl (partStep h l.toElement) (s, false) = ((ps.flatMap (callsFor l false)).foldl h.apply s, false) := by
  induction ps generalizing s with
  | nil => rfl
  | cons p ps ih =>
    rw [List.foldl_cons, List.flatMap_cons, List.foldl_append]
    exact ih _

theorem leafStep_calls (cut : Tri K → Tri K → List (Tri K)) (h : Handle K σ) (s : σ) (l : Leaf K) :
    leafStep cut h s l = if l.isNew then (callsOf cut l).foldl h.apply s else s := by
  unfold leafStep
  split
  · rw [foldl_parts]
    unfold callsOf
    cases parts cut l with
    | nil => rfl
    | cons p ps =>
      rw [List.foldl_cons, List.foldl_append]
      exact congrArg Prod.fst (foldl_calls h l ps _)
  · rfl

theorem transfer_calls (cut : Tri K → Tri K → List (Tri K)) (h : Handle K σ) (leaves : List (Leaf K)) (s : σ) :
    transfer cut h leaves s = ((leaves.filter (·.isNew)).flatMap (callsOf cut)).foldl h.apply s := by
  unfold transfer
  induction leaves generalizing s with
  | nil => rfl
  | cons l leaves ih =>
    rw [List.foldl_cons, ih, leafStep_calls]
    by_cases hl : l.isNew = true
    · rw [if_pos hl, List.filter_cons_of_pos hl, List.flatMap_cons, List.foldl_append]
    · rw [if_neg hl, List.filter_cons_of_neg hl]

theorem recorder_foldl (cs : List (Call K)) : ∀ s, cs.foldl recorder.apply s = s ++ cs := by
  induction cs with
  | nil => intro s; simp
  | cons c cs ih =>
    intro s
    rw [List.foldl_cons, ih]
    cases c <;> simp [Handle.apply, recorder]

/-! ## C81 -/

/-- C81: the calls that a handle sees, in their order, for every list of leaf elements, every choice of old elements and every
cut. -/
theorem C81_calls (cut : Tri K → Tri K → List (Tri K)) (leaves : List (Leaf K)) :
    transfer cut recorder leaves [] = (leaves.filter (·.isNew)).flatMap (callsOf cut) := by
  rw [transfer_calls, recorder_foldl, List.nil_append]

/-- C81: every handle is driven by these calls and nothing else. -/
theorem C81_any_handle (cut : Tri K → Tri K → List (Tri K)) (h : Handle K σ) (leaves : List (Leaf K)) (s : σ) :
    transfer cut h leaves s = (transfer cut recorder leaves []).foldl h.apply s := by
  rw [C81_calls, transfer_calls]

/-- C81: every call to restrict is directly preceded by the call that prolongs the data of an old element of the same component
to the same triangle; the father that the triangle is bound to is the one of the call. -/
theorem C81_pairs (cut : Tri K → Tri K → List (Tri K)) (leaves : List (Leaf K)) (A B : List (Call K)) (f : Element K) (m : Middle K) (i : Bool)
    (h : transfer cut recorder leaves [] = A ++ .restrict f m i :: B) :
    ∃ A' o l, A = A' ++ [.prolong o ⟨m.corners, o⟩ true] ∧ l ∈ leaves ∧ l.isNew = true ∧ f = l.toElement ∧ m.father = f ∧ o ∈ l.children ∧
      m.corners ∈ cut o.corners l.corners := by
  rw [C81_calls] at h
  -- a list of pairs
  have key : ∀ (ps : List (Call K × Call K)) (A : List (Call K)), (∀ p ∈ ps, ∃ o l m i, p = (.prolong o ⟨m, o⟩ true, .restrict l.toElement ⟨m, l.toElement⟩ i) ∧
      l ∈ leaves ∧ l.isNew = true ∧ o ∈ l.children ∧ m ∈ cut o.corners l.corners) →
      (ps.flatMap fun p => [p.1, p.2]) = A ++ .restrict f m i :: B →
      ∃ A' o l, A = A' ++ [.prolong o ⟨m.corners, o⟩ true] ∧ l ∈ leaves ∧ l.isNew = true ∧ f = l.toElement ∧ m.father = f ∧ o ∈ l.children ∧
      m.corners ∈ cut o.corners l.corners := by
    intro ps
    induction ps with
    | nil => intro A _ h; simp at h
    | cons p ps ih =>
      intro A hp h
      obtain ⟨o, l, m', i', rfl, h1, h2, h3, h4⟩ := hp p (by simp)
      rw [List.flatMap_cons] at h
      match A with
      | [] => simp at h
      | [a] =>
        simp only [List.cons_append, List.nil_append, List.cons.injEq] at h
        obtain ⟨ha, hr, _⟩ := h
        injection hr with e1 e2 e3
        subst e1 e2
        exact ⟨[], o, l, by rw [← ha]; rfl, h1, h2, rfl, rfl, h3, h4⟩
      | a :: b :: A =>
        simp only [List.cons_append, List.nil_append, List.cons.injEq] at h
        obtain ⟨ha, hb, h⟩ := h
        obtain ⟨A', o', l', e, rest⟩ := ih A (fun p hp' => hp p (by simp [hp'])) h
        exact ⟨a :: b :: A', o', l', by rw [e]; rfl, rest⟩
  let ps : List (Call K × Call K) := (leaves.filter (·.isNew)).flatMap fun l => match parts cut l with
    | [] => []
    | p :: ps => (.prolong p.1 ⟨p.2, p.1⟩ true, .restrict l.toElement ⟨p.2, l.toElement⟩ true) ::
        ps.map fun p => (.prolong p.1 ⟨p.2, p.1⟩ true, .restrict l.toElement ⟨p.2, l.toElement⟩ false)
  refine key ps A ?_ ?_
  · intro p hp
    simp only [ps, List.mem_flatMap, List.mem_filter] at hp
    obtain ⟨l, ⟨hl, hn⟩, hp⟩ := hp
    have hparts : ∀ q ∈ parts cut l, q.1 ∈ l.children ∧ q.2 ∈ cut q.1.corners l.corners := by
      intro q hq
      simp only [parts, List.mem_flatMap, List.mem_map] at hq
      obtain ⟨o, ho, m, hm, rfl⟩ := hq
      exact ⟨ho, hm⟩
    split at hp
    · simp at hp
    · rename_i q qs hq
      rcases List.mem_cons.1 hp with rfl | hp
      · exact ⟨q.1, l, q.2, true, rfl, hl, hn, hparts q (by rw [hq]; simp)⟩
      · obtain ⟨q', hq', rfl⟩ := List.mem_map.1 hp
        exact ⟨q'.1, l, q'.2, false, rfl, hl, hn, hparts q' (by rw [hq]; simp [hq'])⟩
  · rw [← h]
    simp only [ps, List.flatMap_assoc]
    refine List.flatMap_congr fun l _ => ?_
    unfold callsOf
    split
    · rfl
    · simp only [List.flatMap_cons, List.flatMap_map]
      rfl

/-- C81: the restrictions to one new element: the first one has `initialize`, no other one has. -/
theorem C81_initialize (cut : Tri K → Tri K → List (Tri K)) (l : Leaf K) (hl : l.isNew = true) :
    (transfer cut recorder [l] []).filterMap (fun c => match c with | .restrict _ _ i => some i | .prolong _ _ _ => none) =
      (List.range (parts cut l).length).map fun k => decide (k = 0) := by
  rw [C81_calls, List.filter_cons_of_pos hl]
  simp only [List.filter_nil, List.flatMap_cons, List.flatMap_nil, List.append_nil]
  unfold callsOf
  cases parts cut l with
  | nil => rfl
  | cons p ps =>
    rw [List.length_cons, List.range_succ_eq_map, List.map_cons, List.map_map]
    simp only [callsFor, List.cons_append, List.nil_append, List.filterMap_cons, decide_true, List.cons.injEq, true_and]
    have e : ∀ n : Nat, ((List.range n).map ((fun k => decide (k = 0)) ∘ Nat.succ)) = List.replicate n false := by
      intro n
      have : (fun k => decide (k = 0)) ∘ Nat.succ = fun _ => false := by funext k; simp
      rw [this, List.map_const', List.length_range]
    rw [e]
    induction ps with
    | nil => rfl
    | cons q ps ih =>
      rw [List.flatMap_cons, List.length_cons, List.replicate_succ, ← ih]
      rfl

/-- An example for the next statements: a square, cut along one diagonal before and along the other one afterwards, and an
element that is not new. -/
def exLeaves : List (Leaf ℚ) :=
  let o1 : Element ℚ := ⟨0, ((0, 0), (2, 0), (2, 2))⟩
  let o2 : Element ℚ := ⟨1, ((0, 0), (2, 2), (0, 2))⟩
  [⟨⟨2, ((0, 0), (2, 0), (0, 2))⟩, true, [o1, o2]⟩, ⟨⟨3, ((2, 0), (2, 2), (0, 2))⟩, true, [o1, o2]⟩, ⟨⟨4, ((2, 0), (4, 0), (2, 2))⟩, false, []⟩]

example : (exLeaves.map fun l => (callsOf (Clip.cutSet 0 (1 / 10 ^ 8)) l).length) = [4, 4, 0] := by decide +kernel

/-! ## C82: piecewise constant data -/

/-- The sum over the parts of a new element. -/
def partSum (v : Nat → K) (e : Element K) (ps : List (Element K × Tri K)) : K :=
  (ps.map fun p => Clip.volume p.2 / Clip.volume e.corners * v p.1.id).sum

theorem parts_p0 (e : Element K) (ps : List (Element K × Tri K)) (hps : ∀ p ∈ ps, p.1.id ≠ e.id) : ∀ (s : P0 K) (i : Bool),
    (ps = [] ∨ ((ps.foldl (partStep p0 e) (s, i)).1.val e.id = (if i then 0 else s.val e.id) + partSum s.val e ps)) ∧
    (∀ n, n ≠ e.id → (ps.foldl (partStep p0 e) (s, i)).1.val n = s.val n) := by
  induction ps with
  | nil => intro s i; exact ⟨Or.inl rfl, fun _ _ => rfl⟩
  | cons p ps ih =>
    intro s i
    have hp := hps p (by simp)
    obtain ⟨h1, h2⟩ := ih (fun q hq => hps q (by simp [hq])) (partStep p0 e (s, i) p).1 false
    have hother : ∀ n, n ≠ e.id → (partStep p0 e (s, i) p).1.val n = s.val n := by
      intro n hn
      simp [partStep, middleStep, p0, hn]
    have hself : (partStep p0 e (s, i) p).1.val e.id = (if i then 0 else s.val e.id) + Clip.volume p.2 / Clip.volume e.corners * s.val p.1.id := by
      simp [partStep, middleStep, p0]
    have hfold : (p :: ps).foldl (partStep p0 e) (s, i) = ps.foldl (partStep p0 e) ((partStep p0 e (s, i) p).1, false) := rfl
    rw [hfold]
    refine ⟨Or.inr ?_, fun n hn => (h2 n hn).trans (hother n hn)⟩
    have hsum : partSum (partStep p0 e (s, i) p).1.val e ps = partSum s.val e ps := by
      unfold partSum
      congr 1
      refine List.map_congr_left fun q hq => ?_
      rw [hother _ (hps q (by simp [hq]))]
    rcases h1 with rfl | h1
    · rw [List.foldl_nil, hself]; simp [partSum]
    · rw [h1, hself, hsum]
      simp only [partSum, List.map_cons, List.sum_cons]
      simp [add_assoc]

theorem leaf_p0 (cut : Tri K → Tri K → List (Tri K)) (s : P0 K) (l : Leaf K) (hl : l.isNew = true) (hc : ∀ o ∈ l.children, o.id ≠ l.id) :
    (parts cut l ≠ [] → (leafStep cut p0 s l).val l.id = partSum s.val l.toElement (parts cut l)) ∧
    (parts cut l = [] → (leafStep cut p0 s l).val l.id = s.val l.id) ∧
    (∀ n, n ≠ l.id → (leafStep cut p0 s l).val n = s.val n) := by
  have hps : ∀ p ∈ parts cut l, p.1.id ≠ l.toElement.id := by
    intro p hp
    simp only [parts, List.mem_flatMap, List.mem_map] at hp
    obtain ⟨o, ho, m, _, rfl⟩ := hp
    exact hc o ho
  unfold leafStep
  rw [if_pos hl, foldl_parts]
  obtain ⟨h1, h2⟩ := parts_p0 l.toElement (parts cut l) hps s true
  refine ⟨fun hne => ?_, fun he => ?_, h2⟩
  · have := h1.resolve_left hne
    simpa using this
  · rw [he]; rfl

theorem leaf_p0_old (cut : Tri K → Tri K → List (Tri K)) (s : P0 K) (l : Leaf K) (hl : ¬ l.isNew = true) : leafStep cut p0 s l = s := by
  unfold leafStep
  rw [if_neg hl]

/-- The ids are used as they must be: no two new elements have the same id, and no old element of a component has the id of a
new element. -/
def IdsOk (leaves : List (Leaf K)) : Prop :=
  ((leaves.filter (·.isNew)).map (·.id)).Nodup ∧
  ∀ l ∈ leaves, l.isNew = true → ∀ o ∈ l.children, ∀ l' ∈ leaves, l'.isNew = true → o.id ≠ l'.id

/-- C82: nothing else is changed: the value of every id that no new element has stays. -/
theorem C82_unchanged (cut : Tri K → Tri K → List (Tri K)) (leaves : List (Leaf K)) (h : IdsOk leaves) : ∀ (s : P0 K) (n : Nat),
    (∀ l ∈ leaves, l.isNew = true → l.id ≠ n) → (transfer cut p0 leaves s).val n = s.val n := by
  induction leaves with
  | nil => intro s n _; rfl
  | cons a leaves ih =>
    intro s n hn
    have hok : IdsOk leaves := by
      refine ⟨?_, fun l hl hln o ho l' hl' hl'n => h.2 l (by simp [hl]) hln o ho l' (by simp [hl']) hl'n⟩
      have := h.1
      by_cases ha : a.isNew = true
      · rw [List.filter_cons_of_pos ha, List.map_cons, List.nodup_cons] at this; exact this.2
      · rw [List.filter_cons_of_neg ha] at this; exact this
    have e : transfer cut p0 (a :: leaves) s = transfer cut p0 leaves (leafStep cut p0 s a) := rfl
    rw [e, ih hok _ n fun l hl hln => hn l (by simp [hl]) hln]
    by_cases ha : a.isNew = true
    · exact (leaf_p0 cut s a ha fun o ho => h.2 a (by simp) ha o ho a (by simp) ha).2.2 n (hn a (by simp) ha).symm
    · rw [leaf_p0_old cut s a ha]

/-- C82: the value of a new element after the transfer is the sum, over the parts it is cut into, of the values that the old elements
had before, weighted by the volume of the part divided by the volume of the element. An element without parts keeps what was
stored for its id. -/
theorem C82_value (cut : Tri K → Tri K → List (Tri K)) (leaves : List (Leaf K)) (h : IdsOk leaves) (s : P0 K) (l : Leaf K) (hl : l ∈ leaves)
    (hn : l.isNew = true) :
    (parts cut l ≠ [] → (transfer cut p0 leaves s).val l.id =
      (l.children.map fun o => ((cut o.corners l.corners).map Clip.volume).sum / Clip.volume l.corners * s.val o.id).sum) ∧
    (parts cut l = [] → (transfer cut p0 leaves s).val l.id = s.val l.id) := by
  have hsum : partSum s.val l.toElement (parts cut l) =
      (l.children.map fun o => ((cut o.corners l.corners).map Clip.volume).sum / Clip.volume l.corners * s.val o.id).sum := by
    unfold partSum parts
    generalize l.children = cs
    induction cs with
    | nil => rfl
    | cons o cs ih =>
      rw [List.flatMap_cons, List.map_append, List.sum_append, ih, List.map_cons, List.sum_cons]
      congr 1
      generalize cut o.corners l.corners = ms
      induction ms with
      | nil => simp
      | cons m ms ih2 =>
        simp only [List.map_cons, List.sum_cons] at ih2 ⊢
        rw [ih2]; ring
  rw [← hsum]
  clear hsum
  induction leaves generalizing s with
  | nil => simp at hl
  | cons a leaves ih =>
    have hok : IdsOk leaves := by
      refine ⟨?_, fun l hl hln o ho l' hl' hl'n => h.2 l (by simp [hl]) hln o ho l' (by simp [hl']) hl'n⟩
      have := h.1
      by_cases ha : a.isNew = true
      · rw [List.filter_cons_of_pos ha, List.map_cons, List.nodup_cons] at this; exact this.2
      · rw [List.filter_cons_of_neg ha] at this; exact this
    have e : transfer cut p0 (a :: leaves) s = transfer cut p0 leaves (leafStep cut p0 s a) := rfl
    rw [e]
    by_cases ha : a.isNew = true
    · have hnd := h.1
      rw [List.filter_cons_of_pos ha, List.map_cons, List.nodup_cons] at hnd
      have haft := leaf_p0 cut s a ha fun o ho => h.2 a (by simp) ha o ho a (by simp) ha
      rcases List.mem_cons.1 hl with rfl | hl'
      · have hrest := C82_unchanged cut leaves hok (leafStep cut p0 s l) l.id (by
          intro l' hl' hl'n e
          exact hnd.1 (e ▸ List.mem_map.2 ⟨l', List.mem_filter.2 ⟨hl', hl'n⟩, rfl⟩))
        rw [hrest]
        exact ⟨haft.1, haft.2.1⟩
      · have hne : l.id ≠ a.id := fun e => hnd.1 (e ▸ List.mem_map.2 ⟨l, List.mem_filter.2 ⟨hl', hn⟩, rfl⟩)
        have hs : partSum (leafStep cut p0 s a).val l.toElement (parts cut l) = partSum s.val l.toElement (parts cut l) := by
          unfold partSum
          congr 1
          refine List.map_congr_left fun p hp => ?_
          simp only [parts, List.mem_flatMap, List.mem_map] at hp
          obtain ⟨o, ho, m, _, rfl⟩ := hp
          rw [haft.2.2 _ (h.2 l hl hn o ho a (by simp) ha)]
        have := ih hok (leafStep cut p0 s a) hl'
        rw [hs, haft.2.2 _ hne] at this
        exact this
    · rw [leaf_p0_old cut s a ha]
      have hl' : l ∈ leaves := by
        rcases List.mem_cons.1 hl with rfl | hl'
        · exact absurd hn ha
        · exact hl'
      exact ih hok s hl'

open MeasureTheory (measure_mono measure_empty)

/-- The old elements `olds` and the new elements of `leaves` are two triangulations of the same region: elements of the same
triangulation overlap in null sets, new elements are counter-clockwise, the old elements listed for a new element are old
elements, without repetition, and they include every old element that overlaps with it. -/
structure SameRegion (leaves : List (Leaf ℝ)) (olds : List (Element ℝ)) : Prop where
  ids : IdsOk leaves
  ccw : ∀ l ∈ leaves, l.isNew = true → 0 < Clip.side l.corners.1 l.corners.2.1 l.corners.2.2
  newDisjoint : ((leaves.filter (·.isNew)).map (·.corners)).Pairwise fun s t => MeasureTheory.volume (Clip.region s ∩ Clip.region t) = 0
  oldDisjoint : (olds.map (·.corners)).Pairwise fun s t => MeasureTheory.volume (Clip.region s ∩ Clip.region t) = 0
  same : (⋃ t ∈ (leaves.filter (·.isNew)).map (·.corners), Clip.region t) = ⋃ t ∈ olds.map (·.corners), Clip.region t
  nodup : olds.Nodup
  sub : ∀ l ∈ leaves, l.isNew = true → ∀ o ∈ l.children, o ∈ olds
  childNodup : ∀ l ∈ leaves, l.isNew = true → l.children.Nodup
  complete : ∀ l ∈ leaves, l.isNew = true → ∀ o ∈ olds, o ∉ l.children → MeasureTheory.volume (Clip.region o.corners ∩ Clip.region l.corners) = 0

/-- Area of a triangle. -/
noncomputable def area (t : Tri ℝ) : ℝ := (MeasureTheory.volume (Clip.region t)).toReal

/-- Area of the common part of two triangles. -/
noncomputable def common (s t : Tri ℝ) : ℝ := (MeasureTheory.volume (Clip.region s ∩ Clip.region t)).toReal

theorem sum_children {leaves : List (Leaf ℝ)} {olds : List (Element ℝ)} (h : SameRegion leaves olds) {l : Leaf ℝ} (hl : l ∈ leaves) (hn : l.isNew = true)
    (f : Element ℝ → ℝ) (hf : ∀ o ∈ olds, MeasureTheory.volume (Clip.region o.corners ∩ Clip.region l.corners) = 0 → f o = 0) :
    (l.children.map f).sum = (olds.map f).sum := by
  classical
  rw [← List.sum_toFinset f (h.childNodup l hl hn), ← List.sum_toFinset f h.nodup]
  refine Finset.sum_subset ?_ ?_
  · intro o ho
    rw [List.mem_toFinset] at ho ⊢
    exact h.sub l hl hn o ho
  · intro o ho hno
    rw [List.mem_toFinset] at ho hno
    exact hf o ho (h.complete l hl hn o ho hno)

theorem area_pos {leaves : List (Leaf ℝ)} {olds : List (Element ℝ)} (h : SameRegion leaves olds) {l : Leaf ℝ} (hl : l ∈ leaves) (hn : l.isNew = true) :
    0 < Clip.volume l.corners := by
  have := h.ccw l hl hn
  exact div_pos (abs_pos.2 this.ne') (by norm_num)

theorem sum_common {leaves : List (Leaf ℝ)} {olds : List (Element ℝ)} (h : SameRegion leaves olds) {l : Leaf ℝ} (hl : l ∈ leaves) (hn : l.isNew = true) :
    (olds.map fun o => common o.corners l.corners).sum = area l.corners := by
  have hs := Clip.sum_parts h.oldDisjoint (Clip.measurable_region l.corners) (Clip.region_ne_top l.corners) (by
    rw [← h.same, Set.sdiff_eq_empty.2, measure_empty]
    refine Set.subset_biUnion_of_mem (u := fun t => Clip.region t) ?_
    exact List.mem_map.2 ⟨l, List.mem_filter.2 ⟨hl, hn⟩, rfl⟩)
  rw [List.map_map] at hs
  rw [area, ← hs]
  congr 1
  refine List.map_congr_left fun o _ => ?_
  simp only [common, Function.comp_def]
  rw [Set.inter_comm]

/-- C82, exact values: without tolerances the value of a new element is the average of the old values over it. -/
theorem C82_average {leaves : List (Leaf ℝ)} {olds : List (Element ℝ)} (h : SameRegion leaves olds) (s : P0 ℝ) {l : Leaf ℝ} (hl : l ∈ leaves)
    (hn : l.isNew = true) :
    (adaptTransfer 0 0 p0 leaves s).val l.id = (olds.map fun o => common o.corners l.corners / area l.corners * s.val o.id).sum := by
  have hv := C82_value (Clip.cutSet 0 0) leaves h.ids s l hl hn
  have hccw := h.ccw l hl hn
  have hpos := area_pos h hl hn
  have hcut : ∀ o : Element ℝ, ((Clip.cutSet 0 0 o.corners l.corners).map Clip.volume).sum = common o.corners l.corners :=
    fun o => Clip.C41_cutset_measure o.corners l.corners hccw
  have harea : Clip.volume l.corners = area l.corners := Clip.volume_measure l.corners
  have hne : parts (Clip.cutSet 0 0) l ≠ [] := by
    intro e
    have h0 : ∀ o ∈ l.children, common o.corners l.corners = 0 := by
      intro o ho
      rw [← hcut o]
      have : Clip.cutSet 0 0 o.corners l.corners = [] := by
        unfold parts at e
        rw [List.flatMap_eq_nil_iff] at e
        simpa using e o ho
      rw [this]; rfl
    have h1 := sum_common h hl hn
    rw [← sum_children h hl hn (fun o => common o.corners l.corners) (fun o _ h0 => by simp only [common, h0]; rfl)] at h1
    have h2 : (l.children.map fun o => common o.corners l.corners).sum = 0 := by
      refine List.sum_eq_zero fun x hx => ?_
      obtain ⟨o, ho, rfl⟩ := List.mem_map.1 hx
      exact h0 o ho
    rw [h2, ← harea] at h1
    linarith
  unfold adaptTransfer
  rw [hv.1 hne]
  simp only [hcut, harea]
  refine sum_children h hl hn (fun o => common o.corners l.corners / area l.corners * s.val o.id) ?_
  intro o _ h0
  simp only [common, h0]
  simp

/-- C82, conservation: without tolerances the integral over the new elements after the transfer is the integral over the old elements
before. -/
theorem C82_conservation {leaves : List (Leaf ℝ)} {olds : List (Element ℝ)} (h : SameRegion leaves olds) (s : P0 ℝ) :
    ((leaves.filter (·.isNew)).map fun l => area l.corners * (adaptTransfer 0 0 p0 leaves s).val l.id).sum =
      (olds.map fun o => area o.corners * s.val o.id).sum := by
  have e1 : ((leaves.filter (·.isNew)).map fun l => area l.corners * (adaptTransfer 0 0 p0 leaves s).val l.id) =
      (leaves.filter (·.isNew)).map fun l => (olds.map fun o => common o.corners l.corners * s.val o.id).sum := by
    refine List.map_congr_left fun l hl => ?_
    obtain ⟨hl1, hl2⟩ := List.mem_filter.1 hl
    have hpos : area l.corners ≠ 0 := by
      have := area_pos h hl1 hl2
      rw [Clip.volume_measure] at this
      exact this.ne'
    rw [C82_average h s hl1 hl2, ← List.sum_map_mul_left]
    congr 1
    refine List.map_congr_left fun o _ => ?_
    field_simp
  rw [e1]
  have swap : ∀ (ls : List (Leaf ℝ)) (os : List (Element ℝ)), (ls.map fun l => (os.map fun o => common o.corners l.corners * s.val o.id).sum).sum =
      (os.map fun o => (ls.map fun l => common o.corners l.corners).sum * s.val o.id).sum := by
    intro ls os
    induction ls with
    | nil => simp
    | cons l ls ih =>
      simp only [List.map_cons, List.sum_cons]
      rw [ih, ← List.sum_map_add]
      congr 1
      refine List.map_congr_left fun o _ => ?_
      ring
  rw [swap]
  congr 1
  refine List.map_congr_left fun o ho => ?_
  congr 1
  have hs := Clip.sum_parts h.newDisjoint (Clip.measurable_region o.corners) (Clip.region_ne_top o.corners) (by
    rw [h.same, Set.sdiff_eq_empty.2, measure_empty]
    refine Set.subset_biUnion_of_mem (u := fun t => Clip.region t) ?_
    exact List.mem_map.2 ⟨o, ho, rfl⟩)
  rw [List.map_map] at hs
  exact hs

/-- C82, bounds: without tolerances a new value lies between the smallest and the largest old value; in particular constants
stay as they are. -/
theorem C82_bounds {leaves : List (Leaf ℝ)} {olds : List (Element ℝ)} (h : SameRegion leaves olds) (s : P0 ℝ) {l : Leaf ℝ} (hl : l ∈ leaves)
    (hn : l.isNew = true) {a b : ℝ} (hab : ∀ o ∈ olds, a ≤ s.val o.id ∧ s.val o.id ≤ b) :
    a ≤ (adaptTransfer 0 0 p0 leaves s).val l.id ∧ (adaptTransfer 0 0 p0 leaves s).val l.id ≤ b := by
  rw [C82_average h s hl hn]
  have hpos : 0 < area l.corners := by
    have := area_pos h hl hn
    rwa [Clip.volume_measure] at this
  have hsum : (olds.map fun o => common o.corners l.corners / area l.corners).sum = 1 := by
    have e : (olds.map fun o => common o.corners l.corners / area l.corners) = olds.map fun o => (area l.corners)⁻¹ * common o.corners l.corners :=
      List.map_congr_left fun o _ => by rw [div_eq_inv_mul]
    rw [e, List.sum_map_mul_left, sum_common h hl hn, inv_mul_cancel₀ hpos.ne']
  have key : ∀ os : List (Element ℝ), (∀ o ∈ os, a ≤ s.val o.id ∧ s.val o.id ≤ b) →
      (os.map fun o => common o.corners l.corners / area l.corners).sum * a ≤ (os.map fun o => common o.corners l.corners / area l.corners * s.val o.id).sum ∧
      (os.map fun o => common o.corners l.corners / area l.corners * s.val o.id).sum ≤ (os.map fun o => common o.corners l.corners / area l.corners).sum * b := by
    intro os
    induction os with
    | nil => intro _; simp
    | cons o os ih =>
      intro ho
      obtain ⟨h1, h2⟩ := ih fun o' ho' => ho o' (by simp [ho'])
      obtain ⟨h3, h4⟩ := ho o (by simp)
      have hw : 0 ≤ common o.corners l.corners / area l.corners := div_nonneg ENNReal.toReal_nonneg hpos.le
      simp only [List.map_cons, List.sum_cons, add_mul]
      exact ⟨add_le_add (mul_le_mul_of_nonneg_left h3 hw) h1, add_le_add (mul_le_mul_of_nonneg_left h4 hw) h2⟩
  have := key olds hab
  rw [hsum, one_mul, one_mul] at this
  exact this

/-- C135 with the threshold `δ` for the volumes of the parts: the integral over a new element that has a part differs from the integral
of the old values over it by at most `24 δ` times the sum of the sizes of the old values. What is missing to the full property:
an element without parts, see `C135_small_false`. -/
theorem C135_tolerance_partial {δ : ℝ} (hδ : 0 ≤ δ) (leaves : List (Leaf ℝ)) (h : IdsOk leaves) (s : P0 ℝ) {l : Leaf ℝ} (hl : l ∈ leaves)
    (hn : l.isNew = true) (hccw : 0 < Clip.side l.corners.1 l.corners.2.1 l.corners.2.2) (hp : parts (Clip.cutSet 0 δ) l ≠ []) :
    |area l.corners * (adaptTransfer 0 δ p0 leaves s).val l.id - (l.children.map fun o => common o.corners l.corners * s.val o.id).sum| ≤
      24 * δ * (l.children.map fun o => |s.val o.id|).sum := by
  have hv := (C82_value (Clip.cutSet 0 δ) leaves h s l hl hn).1 hp
  have hpos : 0 < area l.corners := by
    have : 0 < Clip.volume l.corners := div_pos (abs_pos.2 hccw.ne') (by norm_num)
    rwa [Clip.volume_measure] at this
  have harea : Clip.volume l.corners = area l.corners := Clip.volume_measure l.corners
  unfold adaptTransfer
  rw [hv, harea, ← List.sum_map_mul_left]
  have hcut : ∀ o : Element ℝ, |((Clip.cutSet 0 δ o.corners l.corners).map Clip.volume).sum - common o.corners l.corners| ≤ 24 * δ := by
    intro o
    have ht := Clip.C41_cutset_tolerance (le_refl (0 : ℝ)) hδ o.corners l.corners
    rw [neg_zero] at ht
    have hset : {x | x ∈ Clip.region o.corners ∧ Clip.LeftOfAll 0 [l.corners.1, l.corners.2.1, l.corners.2.2] x} = Clip.region o.corners ∩ Clip.region l.corners := by
      have hs : Clip.StrictlyConvex [l.corners.1, l.corners.2.1, l.corners.2.2] := by
        refine ⟨by simp, fun a b c hh => ?_⟩
        have := hh.eq_of_length rfl
        simp only [List.cons.injEq, and_true] at this
        obtain ⟨rfl, rfl, rfl⟩ := this
        exact hccw
      ext x
      rw [Clip.region_eq l.corners]
      simp only [Set.mem_ofPred_eq, Set.mem_inter_iff]
      rw [Clip.region_eq_hull hs]
    rw [hset] at ht
    rw [abs_le]
    constructor
    · have := ht.2; unfold common; linarith
    · have := ht.1; unfold common; linarith
  generalize l.children = cs
  induction cs with
  | nil => simp
  | cons o cs ih =>
    simp only [List.map_cons, List.sum_cons]
    have e : area l.corners * (((Clip.cutSet 0 δ o.corners l.corners).map Clip.volume).sum / area l.corners * s.val o.id) =
        ((Clip.cutSet 0 δ o.corners l.corners).map Clip.volume).sum * s.val o.id := by field_simp
    rw [e]
    have h1 : |((Clip.cutSet 0 δ o.corners l.corners).map Clip.volume).sum * s.val o.id - common o.corners l.corners * s.val o.id| ≤ 24 * δ * |s.val o.id| := by
      rw [← sub_mul, abs_mul]
      exact mul_le_mul_of_nonneg_right (hcut o) (abs_nonneg _)
    rw [mul_add]
    refine le_trans ?_ (add_le_add h1 ih)
    refine le_trans (le_of_eq ?_) (abs_add_le _ _)
    congr 1
    ring

/-- With the tolerances of the code constants are not always preserved: the value of a new element with corners at distance `1e-4` is not
written at all. -/
theorem C135_small_false : ¬ ∀ (l : Leaf ℚ) (s : P0 ℚ), l.isNew = true → IdsOk [l] → (∀ o ∈ l.children, s.val o.id = 1) →
    (∃ o ∈ l.children, o.corners = l.corners) → (adaptTransfer (1 / 10 ^ 14) (1 / 10 ^ 8) p0 [l] s).val l.id = 1 := by
  intro h
  have := h ⟨⟨1, ((0, 0), (1 / 10000, 0), (0, 1 / 10000))⟩, true, [⟨0, ((0, 0), (1 / 10000, 0), (0, 1 / 10000))⟩]⟩ ⟨fun n => if n = 0 then 1 else 0, 0⟩ rfl
    ⟨by simp, by simp⟩ (by simp) ⟨⟨0, ((0, 0), (1 / 10000, 0), (0, 1 / 10000))⟩, by simp, rfl⟩
  exact absurd this (by decide +kernel)

/-- The flip of a diagonal in numbers: the two new elements get the average. -/
example : ((adaptTransfer (0 : ℚ) (1 / 10 ^ 8) p0 exLeaves ⟨fun n => if n = 0 then 1 else if n = 1 then 5 else 7, 0⟩).val 2,
    (adaptTransfer (0 : ℚ) (1 / 10 ^ 8) p0 exLeaves ⟨fun n => if n = 0 then 1 else if n = 1 then 5 else 7, 0⟩).val 3,
    (adaptTransfer (0 : ℚ) (1 / 10 ^ 8) p0 exLeaves ⟨fun n => if n = 0 then 1 else if n = 1 then 5 else 7, 0⟩).val 4) = (3, 3, 7) := by decide +kernel

/-! The same example over the reals satisfies all hypotheses. -/

/-- A counter-clockwise triangle is given by its three edges. -/
theorem mem_region {t : Tri ℝ} (h : 0 < Clip.side t.1 t.2.1 t.2.2) (x : ℝ × ℝ) :
    x ∈ Clip.region t ↔ 0 ≤ Clip.side t.1 t.2.1 x ∧ 0 ≤ Clip.side t.2.1 t.2.2 x ∧ 0 ≤ Clip.side t.2.2 t.1 x := by
  have hs : Clip.StrictlyConvex [t.1, t.2.1, t.2.2] := by
    refine ⟨by simp, fun a b c hh => ?_⟩
    have := hh.eq_of_length rfl
    simp only [List.cons.injEq, and_true] at this
    obtain ⟨rfl, rfl, rfl⟩ := this
    exact h
  rw [Clip.region_eq, ← Clip.region_eq_hull hs]
  constructor
  · intro hx
    exact ⟨hx 0 (by simp), hx 1 (by simp), by simpa using hx 2 (by simp)⟩
  · rintro ⟨h0, h1, h2⟩ i hi
    have : i = 0 ∨ i = 1 ∨ i = 2 := by simp at hi; omega
    rcases this with rfl | rfl | rfl
    · exact h0
    · exact h1
    · simpa using h2

/-- The old elements of the example. -/
def exOlds : List (Element ℝ) := [⟨0, ((0, 0), (2, 0), (2, 2))⟩, ⟨1, ((0, 0), (2, 2), (0, 2))⟩]

/-- The leaf elements of the example. -/
def exNew : List (Leaf ℝ) :=
  [⟨⟨2, ((0, 0), (2, 0), (0, 2))⟩, true, exOlds⟩, ⟨⟨3, ((2, 0), (2, 2), (0, 2))⟩, true, exOlds⟩, ⟨⟨4, ((2, 0), (4, 0), (2, 2))⟩, false, []⟩]

theorem ex_null {s t : Tri ℝ} {p r : ℝ × ℝ} (h : p ≠ r) (hs : ∀ x ∈ Clip.region s, 0 ≤ Clip.side p r x) (ht : ∀ x ∈ Clip.region t, Clip.side p r x ≤ 0) :
    MeasureTheory.volume (Clip.region s ∩ Clip.region t) = 0 :=
  MeasureTheory.measure_mono_null (fun x hx => le_antisymm (ht x hx.2) (hs x hx.1)) (Clip.measure_line h)

example : SameRegion exNew exOlds where
  ids := by
    refine ⟨by simp [exNew], ?_⟩
    intro l hl hn o ho l' hl' hn'
    simp only [exNew, List.mem_cons, List.not_mem_nil, or_false] at hl hl'
    rcases hl with rfl | rfl | rfl
    · simp only [exOlds, List.mem_cons, List.not_mem_nil, or_false] at ho
      rcases ho with rfl | rfl <;> rcases hl' with rfl | rfl | rfl <;> simp
    · simp only [exOlds, List.mem_cons, List.not_mem_nil, or_false] at ho
      rcases ho with rfl | rfl <;> rcases hl' with rfl | rfl | rfl <;> simp
    · simp at ho
  ccw := by
    intro l hl hn
    simp only [exNew, List.mem_cons, List.not_mem_nil, or_false] at hl
    rcases hl with rfl | rfl | rfl <;> norm_num [Clip.side]
  newDisjoint := by
    simp only [exNew, List.filter_cons, List.filter_nil, if_true, List.map_cons, List.map_nil, List.pairwise_cons, List.mem_cons, List.not_mem_nil,
      or_false, forall_eq, List.Pairwise.nil, Bool.false_eq_true, if_false]
    refine ⟨?_, by simp⟩
    refine ex_null (p := (2, 0)) (r := (0, 2)) (by simp) ?_ ?_
    · intro x hx
      rw [mem_region (by norm_num [Clip.side])] at hx
      exact hx.2.1
    · intro x hx
      rw [mem_region (by norm_num [Clip.side])] at hx
      have := hx.2.2
      simp only [Clip.side] at this ⊢
      linarith
  oldDisjoint := by
    simp only [exOlds, List.map_cons, List.map_nil, List.pairwise_cons, List.mem_cons, List.not_mem_nil, or_false, forall_eq, List.Pairwise.nil]
    refine ⟨?_, by simp⟩
    refine ex_null (p := (2, 2)) (r := (0, 0)) (by simp) ?_ ?_
    · intro x hx
      rw [mem_region (by norm_num [Clip.side])] at hx
      exact hx.2.2
    · intro x hx
      rw [mem_region (by norm_num [Clip.side])] at hx
      have := hx.1
      simp only [Clip.side] at this ⊢
      linarith
  same := by
    ext x
    simp only [exNew, exOlds, List.filter_cons, List.filter_nil, if_true, List.map_cons, List.map_nil, List.mem_cons, List.not_mem_nil, or_false,
      Bool.false_eq_true, if_false, Set.iUnion_iUnion_eq_or_left, Set.iUnion_iUnion_eq_left, Set.mem_union]
    rw [mem_region (by norm_num [Clip.side]), mem_region (by norm_num [Clip.side]), mem_region (by norm_num [Clip.side]), mem_region (by norm_num [Clip.side])]
    simp only [Clip.side]
    constructor
    · rintro (⟨h1, h2, h3⟩ | ⟨h1, h2, h3⟩)
      · rcases le_total x.1 x.2 with h | h
        · exact Or.inr ⟨by linarith, by linarith, by linarith⟩
        · exact Or.inl ⟨by linarith, by linarith, by linarith⟩
      · rcases le_total x.1 x.2 with h | h
        · exact Or.inr ⟨by linarith, by linarith, by linarith⟩
        · exact Or.inl ⟨by linarith, by linarith, by linarith⟩
    · rintro (⟨h1, h2, h3⟩ | ⟨h1, h2, h3⟩)
      · rcases le_total (x.1 + x.2) 2 with h | h
        · exact Or.inl ⟨by linarith, by linarith, by linarith⟩
        · exact Or.inr ⟨by linarith, by linarith, by linarith⟩
      · rcases le_total (x.1 + x.2) 2 with h | h
        · exact Or.inl ⟨by linarith, by linarith, by linarith⟩
        · exact Or.inr ⟨by linarith, by linarith, by linarith⟩
  nodup := by simp [exOlds]
  sub := by
    intro l hl hn o ho
    simp only [exNew, List.mem_cons, List.not_mem_nil, or_false] at hl
    rcases hl with rfl | rfl | rfl
    · exact ho
    · exact ho
    · simp at hn
  childNodup := by
    intro l hl hn
    simp only [exNew, List.mem_cons, List.not_mem_nil, or_false] at hl
    rcases hl with rfl | rfl | rfl <;> simp [exOlds]
  complete := by
    intro l hl hn o ho hno
    simp only [exNew, List.mem_cons, List.not_mem_nil, or_false] at hl
    rcases hl with rfl | rfl | rfl
    · exact absurd ho hno
    · exact absurd ho hno
    · simp at hn

end Verif.Transfer
