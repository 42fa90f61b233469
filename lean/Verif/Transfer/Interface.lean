import Verif.Transfer.Model
import Mathlib.Algebra.Order.Ring.Rat
import Mathlib.Algebra.Field.Rat
import Mathlib.Tactic.Linarith
import Mathlib.Tactic.FieldSimp
import Mathlib.Tactic.LinearCombination
import Mathlib.Tactic.Positivity
import Mathlib.Tactic.Ring

/-!
# C80, C83: transfer of data on the interface
-/

namespace Verif.Transfer

set_option linter.unusedSectionVars false

variable {K : Type} [Field K] [LinearOrder K] [IsStrictOrderedRing K] {σ : Type}

/-! ## Specification -/

/-- The call for one old segment of a new segment. -/
def icall (l : ILeaf K) (first : Bool) (o : Segment K) : ICall K :=
  if l.volume2 < o.volume2 then .prolong o l.toSegment true else .restrict l.toSegment o first

/-- The calls for a new segment: only a restriction from the first old segment has `initialize`. -/
def icallsOf (l : ILeaf K) : List (ICall K) :=
  match l.children with
  | [] => []
  | o :: os => icall l true o :: os.map (icall l false)

/-- What a handle does when it gets a call. -/
def IHandle.apply (h : IHandle K σ) (s : σ) : ICall K → σ
  | .prolong f m i => h.prolongLocal f m i s
  | .restrict f m i => h.restrictLocal f m i s

/-- The point on the line from `a` to `c`. -/
def onLine (a c : K × K) (t : K) : K × K := (a.1 + t * (c.1 - a.1), a.2 + t * (c.2 - a.2))

/-! ## Proofs -/

theorem iOldStep_call (h : IHandle K σ) (l : ILeaf K) (s : σ) (i : Bool) (o : Segment K) :
    iOldStep h l.toSegment (s, i) o = (h.apply s (icall l i o), false) := by
  unfold iOldStep icall
  simp only [gt_iff_lt]
  split <;> rfl

theorem ifold_calls (h : IHandle K σ) (l : ILeaf K) (os : List (Segment K)) (s : σ) :
    os.foldl (iOldStep h l.toSegment) (s, false) = ((os.map (icall l false)).foldl h.apply s, false) := by
  induction os generalizing s with
  | nil => rfl
  | cons o os ih => rw [List.foldl_cons, iOldStep_call, ih]; rfl

theorem iLeafStep_calls (h : IHandle K σ) (s : σ) (l : ILeaf K) : iLeafStep h s l = if l.isNew then (icallsOf l).foldl h.apply s else s := by
  unfold iLeafStep
  split
  · unfold icallsOf
    cases l.children with
    | nil => rfl
    | cons o os =>
      rw [List.foldl_cons, iOldStep_call, List.foldl_cons]
      exact congrArg Prod.fst (ifold_calls h l os _)
  · rfl

theorem iTransfer_calls (h : IHandle K σ) (leaves : List (ILeaf K)) (s : σ) :
    iTransfer h leaves s = ((leaves.filter (·.isNew)).flatMap icallsOf).foldl h.apply s := by
  unfold iTransfer
  induction leaves generalizing s with
  | nil => rfl
  | cons l leaves ih =>
    rw [List.foldl_cons, ih, iLeafStep_calls]
    by_cases hl : l.isNew = true
    · rw [if_pos hl, List.filter_cons_of_pos hl, List.flatMap_cons, List.foldl_append]
    · rw [if_neg hl, List.filter_cons_of_neg hl]

theorem irecorder_foldl (cs : List (ICall K)) : ∀ s, cs.foldl irecorder.apply s = s ++ cs := by
  induction cs with
  | nil => intro s; simp
  | cons c cs ih =>
    intro s
    rw [List.foldl_cons, ih]
    cases c <;> simp [IHandle.apply, irecorder]

/-! ## C83 -/

/-- C83: the calls that a handle of the interface grid sees. -/
theorem C83_calls (leaves : List (ILeaf K)) : iTransfer irecorder leaves [] = (leaves.filter (·.isNew)).flatMap icallsOf := by
  rw [iTransfer_calls, irecorder_foldl, List.nil_append]

/-- C83: every handle is driven by these calls and nothing else. -/
theorem C83_any_handle (h : IHandle K σ) (leaves : List (ILeaf K)) (s : σ) :
    iTransfer h leaves s = (iTransfer irecorder leaves []).foldl h.apply s := by
  rw [C83_calls, iTransfer_calls]

theorem iLeaf_other (s : Nat → K) (l : ILeaf K) (n : Nat) (hn : n ≠ l.id) : iLeafStep ip0 s l n = s n := by
  rw [iLeafStep_calls]
  split
  · have key : ∀ (cs : List (ICall K)) (s : Nat → K), (∀ c ∈ cs, ∃ i o, c = icall l i o) → cs.foldl ip0.apply s n = s n := by
      intro cs
      induction cs with
      | nil => intro s _; rfl
      | cons c cs ih =>
        intro s hc
        rw [List.foldl_cons, ih _ fun c' hc' => hc c' (by simp [hc'])]
        obtain ⟨i, o, rfl⟩ := hc c (by simp)
        unfold icall
        split <;> simp [IHandle.apply, ip0, hn]
    refine key _ _ ?_
    intro c hc
    unfold icallsOf at hc
    cases hch : l.children with
    | nil => simp [hch] at hc
    | cons o os =>
      simp only [hch, List.mem_cons, List.mem_map] at hc
      rcases hc with rfl | ⟨o', _, rfl⟩
      · exact ⟨true, o, rfl⟩
      · exact ⟨false, o', rfl⟩
  · rfl

/-- The ids are used as they must be on the interface. -/
def IIdsOk (leaves : List (ILeaf K)) : Prop :=
  ((leaves.filter (·.isNew)).map (·.id)).Nodup ∧
  ∀ l ∈ leaves, l.isNew = true → ∀ o ∈ l.children, ∀ l' ∈ leaves, l'.isNew = true → l' ≠ l → o.id ≠ l'.id

theorem iids_tail {a : ILeaf K} {leaves : List (ILeaf K)} (h : IIdsOk (a :: leaves)) : IIdsOk leaves := by
  refine ⟨?_, fun l hl hln o ho l' hl' hl'n => h.2 l (by simp [hl]) hln o ho l' (by simp [hl']) hl'n⟩
  have := h.1
  by_cases ha : a.isNew = true
  · rw [List.filter_cons_of_pos ha, List.map_cons, List.nodup_cons] at this; exact this.2
  · rw [List.filter_cons_of_neg ha] at this; exact this

/-- C83: nothing else is changed: the value of every id that no new segment has stays. -/
theorem C83_unchanged (leaves : List (ILeaf K)) : ∀ (s : Nat → K) (n : Nat), (∀ l ∈ leaves, l.isNew = true → l.id ≠ n) →
    iTransfer ip0 leaves s n = s n := by
  induction leaves with
  | nil => intro s n _; rfl
  | cons a leaves ih =>
    intro s n hn
    have e : iTransfer ip0 (a :: leaves) s = iTransfer ip0 leaves (iLeafStep ip0 s a) := rfl
    rw [e, ih _ n fun l hl hln => hn l (by simp [hl]) hln]
    by_cases ha : a.isNew = true
    · exact iLeaf_other s a n (hn a (by simp) ha).symm
    · unfold iLeafStep
      rw [if_neg ha]

/-- What happens to one new segment does not depend on the other ones. -/
theorem iTransfer_leaf (leaves : List (ILeaf K)) (h : IIdsOk leaves) (s : Nat → K) (l : ILeaf K) (hl : l ∈ leaves) (hn : l.isNew = true) :
    ∃ s', (∀ o ∈ l.children, s' o.id = s o.id) ∧ iTransfer ip0 leaves s l.id = iLeafStep ip0 s' l l.id := by
  induction leaves generalizing s with
  | nil => simp at hl
  | cons a leaves ih =>
    have hok := iids_tail h
    have e : iTransfer ip0 (a :: leaves) s = iTransfer ip0 leaves (iLeafStep ip0 s a) := rfl
    rw [e]
    by_cases ha : a.isNew = true
    · have hnd := h.1
      rw [List.filter_cons_of_pos ha, List.map_cons, List.nodup_cons] at hnd
      rcases List.mem_cons.1 hl with rfl | hl'
      · refine ⟨s, fun _ _ => rfl, ?_⟩
        refine C83_unchanged leaves _ l.id ?_
        intro l' hl' hl'n e
        exact hnd.1 (e ▸ List.mem_map.2 ⟨l', List.mem_filter.2 ⟨hl', hl'n⟩, rfl⟩)
      · obtain ⟨s', h1, h2⟩ := ih hok (iLeafStep ip0 s a) hl'
        refine ⟨s', fun o ho => ?_, h2⟩
        rw [h1 o ho]
        refine iLeaf_other s a _ ?_
        have hal : a ≠ l := by
          rintro rfl
          exact hnd.1 (List.mem_map.2 ⟨a, List.mem_filter.2 ⟨hl', hn⟩, rfl⟩)
        exact h.2 l hl hn o ho a (by simp) ha hal
    · have e2 : iLeafStep ip0 s a = s := by unfold iLeafStep; rw [if_neg ha]
      rw [e2]
      have hl' : l ∈ leaves := by
        rcases List.mem_cons.1 hl with rfl | hl'
        · exact absurd hn ha
        · exact hl'
      exact ih hok s hl'

/-- C83, refinement: a new segment that is a proper part of an old one gets the value of the old one. -/
theorem C83_split (leaves : List (ILeaf K)) (h : IIdsOk leaves) (s : Nat → K) (l : ILeaf K) (hl : l ∈ leaves) (hn : l.isNew = true)
    (o : Segment K) (ho : l.children = [o]) (hpos : o.a ≠ o.b) (t u : K) (ha : l.a = onLine o.a o.b t) (hb : l.b = onLine o.a o.b u)
    (ht : 0 ≤ t ∧ t ≤ 1) (hu : 0 ≤ u ∧ u ≤ 1) (hproper : |u - t| < 1) : iTransfer ip0 leaves s l.id = s o.id := by
  obtain ⟨s', h1, h2⟩ := iTransfer_leaf leaves h s l hl hn
  rw [h2, iLeafStep_calls, if_pos hn]
  have hO : 0 < o.volume2 := by
    unfold Segment.volume2
    rcases eq_or_ne o.b.1 o.a.1 with e1 | e1
    · have e2 : o.b.2 ≠ o.a.2 := fun e2 => hpos (Prod.ext e1.symm e2.symm)
      have := pow_pos (abs_pos.2 (sub_ne_zero.2 e2)) 2
      rw [sq_abs] at this
      nlinarith [sq_nonneg (o.b.1 - o.a.1)]
    · have := pow_pos (abs_pos.2 (sub_ne_zero.2 e1)) 2
      rw [sq_abs] at this
      nlinarith [sq_nonneg (o.b.2 - o.a.2)]
  have hlen : l.volume2 = (u - t) ^ 2 * o.volume2 := by
    unfold Segment.volume2
    rw [ha, hb]
    simp only [onLine]
    ring
  have hlt : l.volume2 < o.volume2 := by
    have : (u - t) ^ 2 < 1 := by rw [← sq_abs]; nlinarith [abs_nonneg (u - t)]
    rw [hlen]
    nlinarith
  simp only [icallsOf, ho, icall, if_pos hlt]
  simp only [List.map_nil, List.foldl_cons, List.foldl_nil, IHandle.apply, ip0, if_true]
  exact h1 o (by simp [ho])

theorem loc_end {e : Segment K} (h : e.volume2 ≠ 0) : e.loc e.a = 0 ∧ e.loc e.b = 1 := by
  unfold Segment.loc
  constructor
  · simp
  · rw [div_eq_one_iff_eq h]; unfold Segment.volume2; ring

/-- C83, coarsening of two segments that are not longer than the new one and whose common corner projects into the new one: the
value is the convex combination with the lengths of the projections. In particular constants stay as they are. -/
theorem C83_join (leaves : List (ILeaf K)) (h : IIdsOk leaves) (s : Nat → K) (l : ILeaf K) (hl : l ∈ leaves) (hn : l.isNew = true)
    (o1 o2 : Segment K) (ho : l.children = [o1, o2]) (hself : o1.id ≠ l.id ∧ o2.id ≠ l.id) (hpos : l.a ≠ l.b) (b : K × K)
    (h1 : (o1.a = l.a ∧ o1.b = b) ∨ (o1.a = b ∧ o1.b = l.a)) (h2 : (o2.a = b ∧ o2.b = l.b) ∨ (o2.a = l.b ∧ o2.b = b))
    (hlen : o1.volume2 ≤ l.volume2 ∧ o2.volume2 ≤ l.volume2) (ht : 0 ≤ l.loc b ∧ l.loc b ≤ 1) :
    iTransfer ip0 leaves s l.id = l.loc b * s o1.id + (1 - l.loc b) * s o2.id := by
  obtain ⟨s', hs, hval⟩ := iTransfer_leaf leaves h s l hl hn
  have hL : l.volume2 ≠ 0 := by
    intro e
    unfold Segment.volume2 at e
    have e1 : l.b.1 - l.a.1 = 0 := by nlinarith [sq_nonneg (l.b.1 - l.a.1), sq_nonneg (l.b.2 - l.a.2)]
    have e2 : l.b.2 - l.a.2 = 0 := by nlinarith [sq_nonneg (l.b.1 - l.a.1), sq_nonneg (l.b.2 - l.a.2)]
    exact hpos (Prod.ext (sub_eq_zero.1 e1).symm (sub_eq_zero.1 e2).symm)
  obtain ⟨hla, hlb⟩ := loc_end hL
  have w1 : o1.volumeIn l.toSegment = l.loc b := by
    unfold Segment.volumeIn
    rcases h1 with ⟨ea, eb⟩ | ⟨ea, eb⟩
    · rw [ea, eb, hla, sub_zero, abs_of_nonneg ht.1]
    · rw [ea, eb, hla, zero_sub, abs_neg, abs_of_nonneg ht.1]
  have w2 : o2.volumeIn l.toSegment = 1 - l.loc b := by
    unfold Segment.volumeIn
    rcases h2 with ⟨ea, eb⟩ | ⟨ea, eb⟩
    · rw [ea, eb, hlb, abs_of_nonneg (by linarith [ht.2])]
    · rw [ea, eb, hlb, abs_sub_comm, abs_of_nonneg (by linarith [ht.2])]
  rw [hval, iLeafStep_calls, if_pos hn]
  have c1 : icall l true o1 = .restrict l.toSegment o1 true := if_neg (not_lt.2 hlen.1)
  have c2 : icall l false o2 = .restrict l.toSegment o2 false := if_neg (not_lt.2 hlen.2)
  simp only [icallsOf, ho, List.map_cons, List.map_nil, c1, c2]
  simp only [List.foldl_cons, List.foldl_nil, IHandle.apply, ip0, if_true]
  simp only [hself.2, if_false, Bool.false_eq_true, zero_add, w1, w2]
  rw [hs o1 (by simp [ho]), hs o2 (by simp [ho])]

/-- C83, coarsening on a straight line: the weights are the lengths, so the integral stays. -/
theorem C83_join_straight (leaves : List (ILeaf K)) (h : IIdsOk leaves) (s : Nat → K) (l : ILeaf K) (hl : l ∈ leaves) (hn : l.isNew = true)
    (o1 o2 : Segment K) (ho : l.children = [o1, o2]) (hself : o1.id ≠ l.id ∧ o2.id ≠ l.id) (hpos : l.a ≠ l.b) (t : K) (ht : 0 ≤ t ∧ t ≤ 1)
    (h1 : (o1.a = l.a ∧ o1.b = onLine l.a l.b t) ∨ (o1.a = onLine l.a l.b t ∧ o1.b = l.a))
    (h2 : (o2.a = onLine l.a l.b t ∧ o2.b = l.b) ∨ (o2.a = l.b ∧ o2.b = onLine l.a l.b t)) :
    iTransfer ip0 leaves s l.id = t * s o1.id + (1 - t) * s o2.id ∧
      o1.volume2 = t ^ 2 * l.volume2 ∧ o2.volume2 = (1 - t) ^ 2 * l.volume2 := by
  have hL : 0 ≤ l.volume2 := add_nonneg (sq_nonneg _) (sq_nonneg _)
  have hL' : l.volume2 ≠ 0 := by
    intro e
    unfold Segment.volume2 at e
    have e1 : l.b.1 - l.a.1 = 0 := by nlinarith [sq_nonneg (l.b.1 - l.a.1), sq_nonneg (l.b.2 - l.a.2)]
    have e2 : l.b.2 - l.a.2 = 0 := by nlinarith [sq_nonneg (l.b.1 - l.a.1), sq_nonneg (l.b.2 - l.a.2)]
    exact hpos (Prod.ext (sub_eq_zero.1 e1).symm (sub_eq_zero.1 e2).symm)
  have v1 : o1.volume2 = t ^ 2 * l.volume2 := by
    unfold Segment.volume2
    rcases h1 with ⟨ea, eb⟩ | ⟨ea, eb⟩ <;> rw [ea, eb] <;> simp only [onLine] <;> ring
  have v2 : o2.volume2 = (1 - t) ^ 2 * l.volume2 := by
    unfold Segment.volume2
    rcases h2 with ⟨ea, eb⟩ | ⟨ea, eb⟩ <;> rw [ea, eb] <;> simp only [onLine] <;> ring
  have hloc : l.loc (onLine l.a l.b t) = t := by
    unfold Segment.loc
    rw [div_eq_iff hL']
    unfold Segment.volume2
    simp only [onLine]
    ring
  refine ⟨?_, v1, v2⟩
  have := C83_join leaves h s l hl hn o1 o2 ho hself hpos (onLine l.a l.b t) h1 h2 ?_ (by rw [hloc]; exact ht)
  · rwa [hloc] at this
  · rw [v1, v2]
    have q1 : t ^ 2 ≤ 1 := by nlinarith
    have q2 : (1 - t) ^ 2 ≤ 1 := by nlinarith
    constructor <;> nlinarith

/-- Constants are not always preserved: a sharp corner of the interface is removed and one of the two old segments is longer than the
new one. Its value is prolonged, then the value of the other one is added to it. -/
theorem C136_join_false : ¬ ∀ (l : ILeaf ℚ) (o1 o2 : Segment ℚ) (b : ℚ × ℚ) (s : Nat → ℚ), l.isNew = true → l.children = [o1, o2] → IIdsOk [l] →
    o1.id ≠ l.id → o2.id ≠ l.id → l.a ≠ l.b → o1.a = l.a → o1.b = b → o2.a = b → o2.b = l.b → b ≠ l.a → b ≠ l.b → s o1.id = 1 → s o2.id = 1 →
    iTransfer ip0 [l] s l.id = 1 := by
  intro h
  have := h ⟨⟨2, (0, 0), (2, 0)⟩, true, [⟨0, (0, 0), (3, 1)⟩, ⟨1, (3, 1), (2, 0)⟩]⟩ ⟨0, (0, 0), (3, 1)⟩ ⟨1, (3, 1), (2, 0)⟩ (3, 1) (fun _ => 1)
    rfl rfl ⟨by simp, by
      intro l hl _ o ho l' hl' _ hne
      simp only [List.mem_singleton] at hl hl'
      exact absurd (hl'.trans hl.symm) hne⟩ (by simp) (by simp) (by simp) rfl rfl rfl rfl (by simp) (by simp) rfl rfl
  exact absurd this (by decide +kernel)

/-- Two segments on a line joined, and one segment split into two. -/
example : let l1 : ILeaf ℚ := ⟨⟨2, (0, 0), (4, 0)⟩, true, [⟨0, (0, 0), (1, 0)⟩, ⟨1, (1, 0), (4, 0)⟩]⟩
    let l2 : ILeaf ℚ := ⟨⟨4, (4, 0), (5, 1)⟩, true, [⟨3, (4, 0), (6, 2)⟩]⟩
    let l3 : ILeaf ℚ := ⟨⟨5, (5, 1), (6, 2)⟩, true, [⟨3, (4, 0), (6, 2)⟩]⟩
    let r := iTransfer ip0 [l1, l2, l3] fun n => if n = 0 then 8 else if n = 1 then 4 else if n = 3 then 7 else 0
    (r 2, r 4, r 5) = (5, 7, 7) := by decide +kernel

/-! ## C80 on the interface -/

/-- C134 on the interface: if one of the two segments, seen as intervals of the line, contains the other one, it is the length of
the intersection. -/
theorem C134_interface_partial {a b c d : K} (hab : a ≤ b) (hcd : c ≤ d) (h : (a ≤ c ∧ d ≤ b) ∨ (c ≤ a ∧ b ≤ d)) :
    iIntersectionVolume (b - a) (d - c) = min b d - max a c := by
  unfold iIntersectionVolume
  rcases h with ⟨h1, h2⟩ | ⟨h1, h2⟩
  · rw [min_eq_right h2, max_eq_right h1, min_eq_right (by linarith)]
  · rw [min_eq_left h2, max_eq_left h1, min_eq_left (by linarith)]

/-- Otherwise it is not. -/
theorem C134_interface_false : ¬ ∀ a b c d : ℚ, a ≤ b → c ≤ d → max a c ≤ min b d → iIntersectionVolume (b - a) (d - c) = min b d - max a c := by
  intro h
  exact absurd (h 0 2 1 3 (by decide +kernel) (by decide +kernel) (by decide +kernel)) (by decide +kernel)

example : iIntersectionVolume ((3 : ℚ) - 0) (2 - 1) = min 3 2 - max 0 1 := by decide +kernel

end Verif.Transfer
