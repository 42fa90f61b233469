import Verif.Markers.Model
import Mathlib.Tactic.Ring
import Mathlib.Tactic.Linarith
import Mathlib.Tactic.FieldSimp
import Mathlib.Tactic.NormNum
import Mathlib.Algebra.Order.Ring.Rat
import Mathlib.Algebra.Field.Rat

/-!
# Markers of interface elements after any history (property C99)
-/

namespace Verif.Markers

open Verif RefElem InterfaceOps

section
variable {K : Type*} [Field K] [LinearOrder K] [IsStrictOrderedRing K]

/-! ### Segments -/

theorem onSegment_left (a b : K × K) : OnSegment a a b := ⟨0, le_refl _, zero_le_one, by simp⟩

theorem onSegment_right (a b : K × K) : OnSegment b a b := ⟨1, zero_le_one, le_refl _, by simp⟩

theorem onSegment_symm {p a b : K × K} (h : OnSegment p a b) : OnSegment p b a := by
  obtain ⟨t, h0, h1, rfl⟩ := h
  exact ⟨1 - t, by linarith, by linarith, by ext <;> simp <;> ring⟩

/-- A segment is convex. -/
theorem onSegment_trans {p c d a b : K × K} (hp : OnSegment p c d) (hc : OnSegment c a b) (hd : OnSegment d a b) : OnSegment p a b := by
  obtain ⟨t, t0, t1, rfl⟩ := hp
  obtain ⟨u, u0, u1, rfl⟩ := hc
  obtain ⟨w, w0, w1, rfl⟩ := hd
  refine ⟨u + t * (w - u), ?_, ?_, by ext <;> simp <;> ring⟩
  · nlinarith [mul_nonneg t0 w0, mul_nonneg (sub_nonneg.2 t1) u0]
  · nlinarith [mul_nonneg t0 (sub_nonneg.2 w1), mul_nonneg (sub_nonneg.2 t1) (sub_nonneg.2 u1)]

/-- A point of a segment divides it into two segments. -/
theorem onSegment_split {p v a b : K × K} (hv : OnSegment v a b) (hp : OnSegment p a b) : OnSegment p a v ∨ OnSegment p v b := by
  obtain ⟨s, s0, s1, rfl⟩ := hv
  obtain ⟨t, t0, t1, rfl⟩ := hp
  rcases le_or_gt t s with h | h
  · left
    rcases eq_or_lt_of_le s0 with h0 | h0
    · have : t = 0 := by linarith
      exact ⟨0, le_refl _, zero_le_one, by simp [this]⟩
    · refine ⟨t / s, div_nonneg t0 s0, (div_le_one h0).2 h, ?_⟩
      have : t = t / s * s := by field_simp
      generalize t / s = q at this
      ext <;> simp [this] <;> ring
  · right
    have h1 : 0 < 1 - s := by linarith
    refine ⟨(t - s) / (1 - s), div_nonneg (by linarith) h1.le, (div_le_one h1).2 (by linarith), ?_⟩
    have : t - s = (t - s) / (1 - s) * (1 - s) := by field_simp
    generalize (t - s) / (1 - s) = q at this
    have ht : t = s + q * (1 - s) := by linarith
    ext <;> simp [ht] <;> ring

/-! ### The invariant -/

/-- A recorded interface edge that is still an edge is still a segment. -/
def ReqSeg (s : State) : Req → Prop
  | .edge a b true => key a b ∈ s.edges → (Map.find s.segs (key a b)).isSome = true
  | .cross a b _ => key a b ∈ s.edges → (Map.find s.segs (key a b)).isSome = true
  | _ => True

/-- Requests made by refineEdge and insertVertexInCell. -/
def Plain : Req → Prop
  | .edge _ _ _ => True
  | .cell => True
  | _ => False

theorem fresh_of_weak {s : State} (h : Weak s) {v : Nat} (hv : s.next ≤ v) : ∀ e ∈ s.segs, v ∉ e.1 := by
  intro e he hm
  obtain ⟨x, y, -, hk, -, -, hx, hy⟩ := h.pair e.1 (List.mem_map_of_mem he)
  rw [hk, mem_key] at hm
  omega

/-- Edges without the new vertex are old edges; segments without the new vertex are the old ones, unless they were split. -/
theorem reqSeg_mono {s s' : State} {v : Nat} (hv : s.next ≤ v)
    (hk : ∀ k, v ∉ k → k ∈ s'.edges → k ∈ s.edges ∧ ((Map.find s.segs k).isSome = true → (Map.find s'.segs k).isSome = true))
    {r : Req} (h : ReqSeg s r) (hw : ReqWeak s r) : ReqSeg s' r := by
  match r, h, hw with
  | .edge a b true, h, ⟨_, ha, hb⟩ =>
    intro he
    obtain ⟨h1, h2⟩ := hk (key a b) (by rw [mem_key]; omega) he
    exact h2 (h h1)
  | .edge a b false, _, _ => trivial
  | .cell, _, _ => trivial
  | .extend v0, _, _ => trivial
  | .cross a b c, h, ⟨_, _, _, ha, hb, _⟩ =>
    intro he
    obtain ⟨h1, h2⟩ := hk (key a b) (by rw [mem_key]; omega) he
    exact h2 (h h1)

theorem split_old {E E' : List (List Nat)} {a b v : Nat} (h : SplitEdge E a b v E') {k : List Nat} (hk : v ∉ k) (he : k ∈ E') :
    k ∈ E ∧ k ≠ key a b := by
  obtain ⟨-, opp, -, h'⟩ := h
  rcases (h' k).1 he with h1 | rfl | rfl | ⟨c, -, rfl⟩
  · exact h1
  all_goals exact absurd (mem_key.2 (Or.inl rfl)) hk

theorem add_old {E E' : List (List Nat)} {v : Nat} (h : AddVertex E v E') {k : List Nat} (hk : v ∉ k) (he : k ∈ E') : k ∈ E := by
  obtain ⟨opp, -, h'⟩ := h
  rcases (h' k).1 he with h1 | ⟨c, -, rfl⟩
  · exact h1
  · exact absurd (mem_key.2 (Or.inl rfl)) hk

/-- What is proved of all segments: either only plain requests occur, or it depends on the marker only and holds for the marker 1. -/
structure Closed (pos : Nat → K × K) (simple : Bool) (Good : List Nat → Nat → Prop) : Prop where
  split : ∀ a b v m, Good (key a b) m → OnSegment (pos v) (pos a) (pos b) → Good (key v a) m ∧ Good (key v b) m
  any : simple = true ∨ ((∀ k k' m, Good k m → Good k' m) ∧ ∀ k, Good k 1)

/-- The state of the interface. -/
structure SInv (Good : List Nat → Nat → Prop) (s : State) : Prop where
  weak : Weak s
  good : ∀ k m, Map.find s.segs k = some m → Good k m

theorem good_split {Good : List Nat → Nat → Prop} {s s1 : State} {a b v : Nat} (h : SInv Good s) (hv : s.next ≤ v)
    (hi : insertInInterface 2 s [a, b] v = some s1) (hseg : (Map.find s.segs (key a b)).isSome = true)
    (hg : ∀ m, Good (key a b) m → Good (key v a) m ∧ Good (key v b) m) :
    (∀ k m, Map.find s1.segs k = some m → Good k m) ∧
      (∀ k, v ∉ k → k ≠ key a b → Map.find s1.segs k = Map.find s.segs k) := by
  obtain ⟨s', h1, -, -, -, h3⟩ := insertInInterface_spec s a b v (fresh_of_weak h.weak hv)
  rw [h1] at hi
  cases hi
  obtain ⟨m0, hm0⟩ := Option.isSome_iff_exists.1 hseg
  refine ⟨fun k m hk => ?_, fun k hk hne => ?_⟩
  · rw [h3] at hk
    split at hk
    · rename_i hkk
      rw [hm0] at hk
      simp only [Option.getD_some, Option.some.injEq] at hk
      subst hk
      rcases hkk with rfl | rfl
      · exact (hg _ (h.good _ _ hm0)).1
      · exact (hg _ (h.good _ _ hm0)).2
    · split at hk
      · simp at hk
      · exact h.good k m hk
  · rw [h3, if_neg, if_neg hne]
    rintro (rfl | rfl)
    all_goals exact hk (mem_key.2 (Or.inl rfl))

theorem connect_find (s : State) (v c : Nat) (k : List Nat) (m : Nat) (h : Map.find (connect s v c).segs k = some m) :
    Map.find s.segs k = some m ∨ m = 1 := by
  unfold connect at h
  simp only at h
  cases hc : Map.find s.segs (key v c) with
  | some y =>
    rw [Map.insert_old hc] at h
    exact Or.inl h
  | none =>
    rw [Map.find_insert_new hc] at h
    split at h
    · right
      simpa using h.symm
    · exact Or.inl h

theorem connect_isSome (s : State) (v c : Nat) (k : List Nat) (h : (Map.find s.segs k).isSome = true) :
    (Map.find (connect s v c).segs k).isSome = true := by
  unfold connect
  simp only
  cases hc : Map.find s.segs (key v c) with
  | some y => rw [Map.insert_old hc]; exact h
  | none =>
    rw [Map.find_insert_new hc]
    split
    · rfl
    · exact h

theorem sinv_insert {pos : Nat → K × K} {simple : Bool} {Good : List Nat → Nat → Prop} (hG : Closed pos simple Good) {s s' : State}
    {r : Req} (hi : InsertAt pos s r s') (h : SInv Good s) (hr : ReqWeak s r) (hq : ReqSeg s r) (hp : simple = true → Plain r) :
    SInv Good s' ∧ ∀ q, ReqWeak s q → ReqSeg s q → ReqWeak s' q ∧ ReqSeg s' q := by
  obtain ⟨w1, w2⟩ := weak_insert hi.1 h.weak hr
  have hany : ¬ Plain r → (∀ k k' m, Good k m → Good k' m) ∧ ∀ k, Good k 1 := by
    intro hn
    rcases hG.any with h1 | h1
    · exact absurd (hp h1) hn
    · exact h1
  suffices hs : (∀ k m, Map.find s'.segs k = some m → Good k m) ∧ (∀ q, ReqWeak s q → ReqSeg s q → ReqSeg s' q) from
    ⟨⟨w1, hs.1⟩, fun q q1 q2 => ⟨w2 q q1, hs.2 q q1 q2⟩⟩
  obtain ⟨hi, hat⟩ := hi
  cases hi with
  | stale => exact ⟨h.good, fun _ _ q => q⟩
  | crossStale => exact ⟨h.good, fun _ _ q => q⟩
  | @bulk a b v E' hv hs =>
    refine ⟨h.good, fun q q1 q2 => reqSeg_mono (v := v) hv (fun k hk he => ?_) q2 q1⟩
    exact ⟨(split_old hs hk he).1, fun x => x⟩
  | @interface a b v E' s1 hv hs hi =>
    have hpos : OnSegment (pos v) (pos a) (pos b) := hat a b true rfl (by simp only; omega)
    obtain ⟨g1, g2⟩ := good_split h hv hi (hq hs.1) (fun m hm => hG.split a b v m hm hpos)
    refine ⟨g1, fun q q1 q2 => reqSeg_mono (v := v) hv (fun k hk he => ?_) q2 q1⟩
    obtain ⟨e1, e2⟩ := split_old hs hk he
    exact ⟨e1, fun x => by simp only; rw [g2 k hk e2]; exact x⟩
  | @cell v E' hv hs =>
    refine ⟨h.good, fun q q1 q2 => reqSeg_mono (v := v) hv (fun k hk he => ?_) q2 q1⟩
    exact ⟨add_old hs hk he, fun x => x⟩
  | @noEdge v0 v E' hv hs =>
    refine ⟨h.good, fun q q1 q2 => reqSeg_mono (v := v) hv (fun k hk he => ?_) q2 q1⟩
    exact ⟨add_old hs hk he, fun x => x⟩
  | @extend v0 v E' hv hs he =>
    obtain ⟨a1, a2⟩ := hany (by simp [Plain])
    refine ⟨fun k m hk => ?_, fun q q1 q2 => reqSeg_mono (v := v) hv (fun k hk he => ?_) q2 q1⟩
    · rcases connect_find s v v0 k m hk with h1 | rfl
      · exact h.good k m h1
      · exact a2 k
    · exact ⟨add_old hs hk he, fun x => connect_isSome s v v0 k x⟩
  | @cross a b c v E' s1 hv hs hi hcr =>
    obtain ⟨a1, a2⟩ := hany (by simp [Plain])
    obtain ⟨g1, g2⟩ := good_split h hv hi (hq hs.1) (fun m hm => ⟨a1 _ _ m hm, a1 _ _ m hm⟩)
    refine ⟨fun k m hk => ?_, fun q q1 q2 => reqSeg_mono (v := v) hv (fun k hk he => ?_) q2 q1⟩
    · rcases connect_find s1 v c k m hk with h1 | rfl
      · exact g1 k m h1
      · exact a2 k
    · obtain ⟨e1, e2⟩ := split_old hs hk he
      exact ⟨e1, fun x => connect_isSome s1 v c k (by rw [g2 k hk e2]; exact x)⟩

theorem sinv_inserts {pos : Nat → K × K} {simple : Bool} {Good : List Nat → Nat → Prop} (hG : Closed pos simple Good) {s s' : State}
    {l : List Req} (hm : Many (InsertAt pos) s l s') (h : SInv Good s) (hl : ∀ r ∈ l, ReqWeak s r ∧ ReqSeg s r)
    (hp : simple = true → ∀ r ∈ l, Plain r) : SInv Good s' := by
  induction hm with
  | nil => exact h
  | cons h1 _ ih =>
    rename_i x l _
    obtain ⟨a1, a2⟩ := sinv_insert hG h1 h (hl x (by simp)).1 (hl x (by simp)).2 (fun hs => hp hs x (by simp))
    exact ih a1 (fun r hr => a2 r (hl r (by simp [hr])).1 (hl r (by simp [hr])).2) (fun hs r hr => hp hs r (by simp [hr]))

theorem collect_markers (segs : List (List Nat × Nat)) (v : Nat) (l : List Nat) (P : Nat → Prop) (h1 : P 1)
    (h : ∀ k m, Map.find segs k = some m → P m) :
    (∀ k m, Map.find (collect segs v l).1 k = some m → Map.find segs k = some m) ∧ P (collect segs v l).2.1 := by
  induction l using List.reverseRecOn with
  | nil => exact ⟨fun k m hk => hk, h1⟩
  | append_singleton l o ih =>
    have hstep : collect segs v (l ++ [o]) = match Map.find (collect segs v l).1 (key v o) with
        | some m => (Map.erase (collect segs v l).1 (key v o), m, (collect segs v l).2.2 ++ [o])
        | none => collect segs v l := by
      unfold collect
      rw [List.foldl_append]
      rfl
    rw [hstep]
    split
    · rename_i m hm
      refine ⟨fun k m' hk => ?_, h _ m (ih.1 _ _ hm)⟩
      rw [Map.find_erase] at hk
      split at hk
      · simp at hk
      · exact ih.1 k m' hk
    · exact ih

theorem sinv_remove {Good : List Nat → Nat → Prop} (ha : (∀ k k' m, Good k m → Good k' m) ∧ ∀ k, Good k 1) {s s' : State} {v : Nat}
    (hr : Remove s v s') (h : SInv Good s) : SInv Good s' := by
  refine ⟨weak_remove hr h.weak, ?_⟩
  cases hr with
  | bulk _ _ => exact h.good
  | @keep star s1 hflag hstar hrm =>
    unfold removeFromInterface at hrm
    simp only at hrm
    split at hrm
    · simp at hrm
    · simp only [Prod.mk.injEq, and_true] at hrm
      subst hrm
      intro k m hk
      exact h.good k m ((collect_markers s.segs v _ (fun _ => True) trivial (fun _ _ _ => trivial)).1 k m hk)
  | @join star s1 o o' E' hflag hstar hrm hs he =>
    unfold removeFromInterface at hrm
    simp only at hrm
    split at hrm
    · rename_i p q hpq
      simp only [Prod.mk.injEq, Option.some.injEq] at hrm
      obtain ⟨rfl, rfl, rfl⟩ := hrm
      obtain ⟨c1, c2⟩ := collect_markers s.segs v (star.filter fun o => isInterfaceBulk s [v, o]) (fun m => Good [] m) (ha.2 _)
        (fun k m hk => ha.1 _ _ m (h.good k m hk))
      intro k m hk
      simp only at hk
      cases hc : Map.find (collect s.segs v (star.filter fun o => isInterfaceBulk s [v, o])).1 (key p q) with
      | some y =>
        rw [Map.insert_old hc] at hk
        exact h.good k m (c1 k m hk)
      | none =>
        rw [Map.find_insert_new hc] at hk
        split at hk
        · simp only [Option.some.injEq] at hk
          subst hk
          exact ha.1 _ _ _ c2
        · exact h.good k m (c1 k m hk)
    · simp at hrm

theorem sinv_removes {Good : List Nat → Nat → Prop} (ha : (∀ k k' m, Good k m → Good k' m) ∧ ∀ k, Good k 1) {s s' : State} {l : List Nat}
    (hm : Many Remove s l s') (h : SInv Good s) : SInv Good s' := by
  induction hm with
  | nil => exact h
  | cons h1 _ ih => exact ih (sinv_remove ha h1 h)

/-- Calls that refine, add facets to the interface, insert vertices in cells and adapt. -/
def PlainCall : Call → Prop
  | .extend _ => False
  | .cross _ _ _ => False
  | .remove _ => False
  | _ => True

/-- The invariant of a history. -/
structure FInv (simple : Bool) (Good : List Nat → Nat → Prop) (f : Full) : Prop where
  s : SInv Good f.s
  queue : ∀ r ∈ f.insert, ReqWeak f.s r ∧ ReqSeg f.s r
  plain : simple = true → (∀ r ∈ f.insert, Plain r) ∧ f.remove = []

theorem flags_of_bulk {s : State} {a b : Nat} (h : isInterfaceBulk s [a, b] = true) :
    s.flag a = true ∧ s.flag b = true ∧ (Map.find s.segs (key a b)).isSome = true := by
  simp only [isInterfaceBulk, List.all_cons, List.all_nil, Bool.and_true, Bool.and_eq_true] at h
  exact ⟨h.1.1, h.1.2, h.2⟩

theorem weak_edge_lt {s : State} (h : Weak s) {a b : Nat} (he : key a b ∈ s.edges) : a < s.next ∧ b < s.next := by
  obtain ⟨x, y, -, hk, hx, hy⟩ := h.edges _ he
  have := key_eq_iff.1 hk
  omega

theorem finv_step {pos : Nat → K × K} {simple : Bool} {Good : List Nat → Nat → Prop} (hG : Closed pos simple Good) {f f' : Full} {c : Call}
    (hs : Step pos f c f') (h : FInv simple Good f) (hc : simple = true → PlainCall c)
    (hadd : ∀ a b m, c = .add a b m → Good (key a b) m) : FInv simple Good f' := by
  have push : ∀ r, ReqWeak f.s r → ReqSeg f.s r → (simple = true → Plain r) → FInv simple Good { f with insert := f.insert ++ [r] } := by
    intro r h1 h2 h3
    refine ⟨h.s, fun q hq => ?_, fun hx => ⟨fun q hq => ?_, (h.plain hx).2⟩⟩
    · rcases List.mem_append.1 hq with hq | hq
      · exact h.queue q hq
      · rw [List.mem_singleton.1 hq]
        exact ⟨h1, h2⟩
    · rcases List.mem_append.1 hq with hq | hq
      · exact (h.plain hx).1 q hq
      · rw [List.mem_singleton.1 hq]
        exact h3 hx
  cases hs with
  | @add a b m hab he =>
    unfold addInterface
    split
    · exact h
    · obtain ⟨ha, hb⟩ := weak_edge_lt h.s.weak he
      have hmono : ∀ x, f.s.flag x = true → (if x ∈ [a, b] then true else f.s.flag x) = true := by
        intro x hx
        split
        · rfl
        · exact hx
      have hsome : ∀ k, (Map.find f.s.segs k).isSome = true → (Map.find (Map.insert f.s.segs (sortIds [a, b]) m) k).isSome = true := by
        intro k hk
        cases hf : Map.find f.s.segs (sortIds [a, b]) with
        | some y => rw [Map.insert_old hf]; exact hk
        | none =>
          rw [Map.find_insert_new hf]
          split
          · rfl
          · exact hk
      refine ⟨⟨⟨?_, h.s.weak.edges⟩, ?_⟩, ?_, h.plain⟩
      · intro k hk
        have hk' : k = sortIds [a, b] ∨ k ∈ f.s.segs.map Prod.fst := by
          rcases Map.mem_keys_insert.1 hk with h1 | h1
          · first | exact Or.inl h1 | exact Or.inr h1
          · first | exact Or.inl h1 | exact Or.inr h1
        rcases hk' with rfl | hk'
        · exact ⟨a, b, hab, rfl, by simp, by simp, ha, hb⟩
        · obtain ⟨x, y, hxy, hkk, hx, hy, hl⟩ := h.s.weak.pair k hk'
          exact ⟨x, y, hxy, hkk, hmono x hx, hmono y hy, hl⟩
      · intro k m' hk
        simp only at hk
        cases hf : Map.find f.s.segs (sortIds [a, b]) with
        | some y =>
          rw [Map.insert_old hf] at hk
          exact h.s.good k m' hk
        | none =>
          rw [Map.find_insert_new hf] at hk
          split at hk
          · rename_i hkk
            simp only [Option.some.injEq] at hk
            subst hk hkk
            exact hadd a b m rfl
          · exact h.s.good k m' hk
      · intro r hr
        obtain ⟨q1, q2⟩ := h.queue r hr
        refine ⟨?_, ?_⟩
        · refine reqWeak_mono (s := f.s) ?_ ?_ q1
          · exact le_refl _
          · exact hmono
        match r, q2 with
        | .edge x y true, q2 => exact fun he => hsome _ (q2 he)
        | .edge x y false, _ => trivial
        | .cell, _ => trivial
        | .extend _, _ => trivial
        | .cross x y z, q2 => exact fun he => hsome _ (q2 he)
  | @refine a b hab he =>
    obtain ⟨ha, hb⟩ := weak_edge_lt h.s.weak he
    refine push _ ?_ ?_ (fun _ => trivial)
    · refine ⟨fun hi => ?_, ha, hb⟩
      obtain ⟨h1, h2, -⟩ := flags_of_bulk hi
      exact ⟨h1, h2⟩
    · cases hi : isInterfaceBulk f.s [a, b] with
      | true => exact fun _ => (flags_of_bulk hi).2.2
      | false => trivial
  | cell => exact push _ trivial trivial (fun _ => trivial)
  | extend h1 h2 => exact push _ ⟨h1, h2⟩ trivial (fun hx => absurd (hc hx) (by simp [PlainCall]))
  | @cross a b c h1 h2 h3 h4 h5 =>
    obtain ⟨f1, f2, f3⟩ := flags_of_bulk h1
    obtain ⟨m, hm⟩ := Option.isSome_iff_exists.1 f3
    obtain ⟨x, y, -, hk, -, -, hx, hy⟩ := h.s.weak.pair (key a b) (Map.find_isSome_iff.1 ⟨m, hm⟩)
    have := key_eq_iff.1 hk
    exact push _ ⟨f1, f2, h2, by omega, by omega, h3⟩ (fun _ => f3) (fun hx => absurd (hc hx) (by simp [PlainCall]))
  | remove => exact ⟨h.s, h.queue, fun hx => absurd (hc hx) (by simp [PlainCall])⟩
  | @adapt s1 s2 h1 h2 =>
    have i1 := sinv_inserts hG h1 h.s h.queue (fun hx => (h.plain hx).1)
    refine ⟨?_, by simp, fun _ => by simp⟩
    rcases hG.any with hx | ha
    · rw [(h.plain hx).2] at h2
      cases h2
      exact i1
    · exact sinv_removes ha h2 i1

theorem finv_init {edges segs next} (h : Mesh edges segs next) (simple : Bool) {Good : List Nat → Nat → Prop}
    (hg : ∀ e ∈ segs, Good e.1 e.2) : FInv simple Good ⟨ofExplicit edges segs next, [], []⟩ :=
  ⟨⟨(weak_reach h (f := ⟨ofExplicit edges segs next, [], []⟩) Relation.ReflTransGen.refl).1,
    fun k m hk => hg (k, m) (Map.mem_of_find hk)⟩, by simp, fun _ => by simp⟩

theorem finv_history {pos : Nat → K × K} {simple : Bool} {Good : List Nat → Nat → Prop} (hG : Closed pos simple Good) {f f' : Full}
    {calls : List Call} (hh : History pos f calls f') (h : FInv simple Good f) (hc : simple = true → ∀ c ∈ calls, PlainCall c)
    (hadd : ∀ a b m, Call.add a b m ∈ calls → Good (key a b) m) : FInv simple Good f' := by
  induction hh with
  | nil => exact h
  | snoc _ hs ih =>
    refine finv_step hG hs (ih (fun hx c hcm => hc hx c (by simp [hcm])) (fun a b m hm => hadd a b m (by simp [hm]))) (fun hx => hc hx _ (by simp))
      (fun a b m he => hadd a b m (by simp [he]))

/-! ### C99 -/

/-- **C99**: after any history of calls (refinement, extension, crossing, removal, adding of facets), every interface element has a marker that was
given for an initial segment or in a call of addInterface, or the default 1. -/
theorem C99_values {edges segs next} (h : Mesh edges segs next) (pos : Nat → K × K) {calls : List Call} {f : Full}
    (hh : History pos ⟨ofExplicit edges segs next, [], []⟩ calls f) {a b m : Nat} (hf : Map.find f.s.segs (sortIds [a, b]) = some m) :
    (∃ e ∈ segs, e.2 = m) ∨ (∃ x y, Call.add x y m ∈ calls) ∨ m = 1 := by
  have hG : Closed pos false (fun _ m => (∃ e ∈ segs, e.2 = m) ∨ (∃ x y, Call.add x y m ∈ calls) ∨ m = 1) :=
    ⟨fun a b v m hm _ => ⟨hm, hm⟩, Or.inr ⟨fun _ _ _ hm => hm, fun _ => Or.inr (Or.inr rfl)⟩⟩
  have := finv_history hG hh (finv_init h false fun e he => Or.inl ⟨e, he, rfl⟩) (by simp) (fun a b m hm => Or.inr (Or.inl ⟨a, b, hm⟩))
  exact this.s.good _ _ hf

/-- **C99**: as long as the interface is only refined (in the bulk anything may be refined) and facets are added to it, every interface element lies on an
initial segment, or on a facet that was added, with the same marker. -/
theorem C99_inherited {edges segs next} (h : Mesh edges segs next) (pos : Nat → K × K) {calls : List Call} (hc : ∀ c ∈ calls, PlainCall c)
    {f : Full} (hh : History pos ⟨ofExplicit edges segs next, [], []⟩ calls f) {a b m : Nat}
    (hf : Map.find f.s.segs (sortIds [a, b]) = some m) :
    ∃ x y, ((∃ e ∈ segs, e.1 = sortIds [x, y] ∧ e.2 = m) ∨ Call.add x y m ∈ calls) ∧
      ∀ p, OnSegment p (pos a) (pos b) → OnSegment p (pos x) (pos y) := by
  have hG : Closed pos true (fun k m => ∀ a b, k = key a b → ∃ x y, ((∃ e ∈ segs, e.1 = sortIds [x, y] ∧ e.2 = m) ∨ Call.add x y m ∈ calls) ∧
      ∀ p, OnSegment p (pos a) (pos b) → OnSegment p (pos x) (pos y)) := by
    refine ⟨fun a b v m hm hv => ?_, Or.inl rfl⟩
    obtain ⟨x, y, h1, h2⟩ := hm a b rfl
    constructor
    · intro c d hk
      refine ⟨x, y, h1, fun p hp => h2 p ?_⟩
      rcases key_eq_iff.1 hk with ⟨rfl, rfl⟩ | ⟨rfl, rfl⟩
      · exact onSegment_trans hp hv (onSegment_left _ _)
      · exact onSegment_trans hp (onSegment_left _ _) hv
    · intro c d hk
      refine ⟨x, y, h1, fun p hp => h2 p ?_⟩
      rcases key_eq_iff.1 hk with ⟨rfl, rfl⟩ | ⟨rfl, rfl⟩
      · exact onSegment_trans hp hv (onSegment_right _ _)
      · exact onSegment_trans hp (onSegment_right _ _) hv
  have swap : ∀ a b x y, key a b = key x y → ∀ p, OnSegment p (pos x) (pos y) → OnSegment p (pos a) (pos b) := by
    intro a b x y hk p hp
    rcases key_eq_iff.1 hk with ⟨rfl, rfl⟩ | ⟨rfl, rfl⟩
    · exact hp
    · exact onSegment_symm hp
  have := finv_history hG hh (finv_init h true fun e he => ?_) (fun _ => hc) (fun a b m hm => ?_)
  · exact this.s.good _ _ hf a b rfl
  · intro a b hk
    exact ⟨a, b, Or.inl ⟨e, he, hk, rfl⟩, fun p hp => hp⟩
  · intro x y hk
    exact ⟨a, b, Or.inr hm, swap a b x y hk⟩

/-! #### Nothing of the interface is lost -/

/-- All points of a segment lie on segments with the marker `m`. -/
def Covered (pos : Nat → K × K) (P : K × K → Prop) (m : Nat) (s : State) : Prop :=
  ∀ p, P p → ∃ a b, Map.find s.segs (key a b) = some m ∧ OnSegment p (pos a) (pos b)

theorem covered_insert {pos : Nat → K × K} {P : K × K → Prop} {m : Nat} {s s' : State} {r : Req} (hi : InsertAt pos s r s') (hw : Weak s)
    (hq : ReqSeg s r) (hp : Plain r) (h : Covered pos P m s) : Covered pos P m s' := by
  obtain ⟨hi, hat⟩ := hi
  cases hi with
  | stale => exact h
  | bulk _ _ => exact h
  | cell _ _ => exact h
  | crossStale => exact hp.elim
  | noEdge _ _ => exact hp.elim
  | extend _ _ _ => exact hp.elim
  | cross _ _ _ _ => exact hp.elim
  | @interface a b v E' s1 hv hs hi =>
    have hpos : OnSegment (pos v) (pos a) (pos b) := hat a b true rfl (by simp only; omega)
    obtain ⟨s', h1, -, -, -, h3⟩ := insertInInterface_spec s a b v (fresh_of_weak hw hv)
    rw [h1] at hi
    cases hi
    intro p hpp
    obtain ⟨c, d, hcd, hon⟩ := h p hpp
    by_cases hk : key c d = key a b
    · have hval : (Map.find s.segs (key a b)).getD 0 = m := by rw [← hk, hcd]; rfl
      have hon' : OnSegment p (pos a) (pos b) := by
        rcases key_eq_iff.1 hk with ⟨rfl, rfl⟩ | ⟨rfl, rfl⟩
        · exact hon
        · exact onSegment_symm hon
      rcases onSegment_split hpos hon' with h4 | h4
      · exact ⟨v, a, by simp only; rw [h3, if_pos (Or.inl rfl), hval], onSegment_symm h4⟩
      · exact ⟨v, b, by simp only; rw [h3, if_pos (Or.inr rfl), hval], h4⟩
    · refine ⟨c, d, ?_, hon⟩
      simp only
      have hvk := fresh_of_weak hw hv _ (Map.mem_of_find hcd)
      rw [h3, if_neg, if_neg hk, hcd]
      rintro (he | he)
      · simp only [he] at hvk; exact hvk (mem_key.2 (Or.inl rfl))
      · simp only [he] at hvk; exact hvk (mem_key.2 (Or.inl rfl))

theorem covered_inserts {pos : Nat → K × K} {P : K × K → Prop} {m : Nat} {s s' : State} {l : List Req} (hm : Many (InsertAt pos) s l s')
    (hw : Weak s) (hl : ∀ r ∈ l, ReqWeak s r ∧ ReqSeg s r) (hp : ∀ r ∈ l, Plain r) (h : Covered pos P m s) : Covered pos P m s' := by
  have hG : Closed pos true (fun _ _ => True) := ⟨fun _ _ _ _ _ _ => ⟨trivial, trivial⟩, Or.inl rfl⟩
  induction hm with
  | nil => exact h
  | cons h1 _ ih =>
    rename_i x l _
    obtain ⟨a1, a2⟩ := sinv_insert hG h1 ⟨hw, fun _ _ _ => trivial⟩ (hl x (by simp)).1 (hl x (by simp)).2 (fun _ => hp x (by simp))
    exact ih a1.weak (fun r hr => a2 r (hl r (by simp [hr])).1 (hl r (by simp [hr])).2) (fun r hr => hp r (by simp [hr]))
      (covered_insert h1 hw (hl x (by simp)).2 (hp x (by simp)) h)

theorem covered_history {pos : Nat → K × K} {P : K × K → Prop} {m : Nat} {f f' : Full} {calls : List Call} (hh : History pos f calls f')
    (hi : FInv true (fun _ _ => True) f) (hc : ∀ c ∈ calls, PlainCall c) (h : Covered pos P m f.s) : Covered pos P m f'.s := by
  have hG : Closed pos true (fun _ _ => True) := ⟨fun _ _ _ _ _ _ => ⟨trivial, trivial⟩, Or.inl rfl⟩
  induction hh with
  | nil => exact h
  | @snoc f1 f2 l c h0 hs ih =>
    have i1 := finv_history hG h0 hi (fun _ c hcm => hc c (by simp [hcm])) (fun _ _ _ _ => trivial)
    have c1 := ih (fun c hcm => hc c (by simp [hcm]))
    have hcc := hc c (by simp)
    cases hs with
    | @add a b m' hab he =>
      unfold addInterface
      split
      · exact c1
      · intro p hp
        obtain ⟨x, y, hxy, hon⟩ := c1 p hp
        refine ⟨x, y, ?_, hon⟩
        simp only
        cases hf : Map.find f1.s.segs (sortIds [a, b]) with
        | some z => rw [Map.insert_old hf]; exact hxy
        | none =>
          rw [Map.find_insert_new hf, if_neg]
          · exact hxy
          · intro he
            rw [he, hf] at hxy
            simp at hxy
    | refine _ _ => exact c1
    | cell => exact c1
    | extend _ _ => exact hcc.elim
    | cross _ _ _ _ _ => exact hcc.elim
    | remove => exact hcc.elim
    | @adapt s1 s2 h1 h2 =>
      obtain ⟨p1, p2⟩ := i1.plain rfl
      have c2 := covered_inserts h1 i1.s.weak i1.queue p1 c1
      rw [p2] at h2
      cases h2
      exact c2

/-- **C99**: while the interface is only refined and added to, every point of an initial segment stays on an interface element with the marker of
this segment: markers are functions on the interface that refinement does not change. -/
theorem C99_covered {edges segs next} (h : Mesh edges segs next) (pos : Nat → K × K) {calls : List Call} (hc : ∀ c ∈ calls, PlainCall c)
    {f : Full} (hh : History pos ⟨ofExplicit edges segs next, [], []⟩ calls f) {x y m : Nat} (he : (sortIds [x, y], m) ∈ segs)
    (p : K × K) (hp : OnSegment p (pos x) (pos y)) :
    ∃ a b, Map.find f.s.segs (sortIds [a, b]) = some m ∧ OnSegment p (pos a) (pos b) := by
  have hi := finv_init h true (Good := fun _ _ => True) (fun _ _ => trivial)
  refine covered_history (P := fun p => OnSegment p (pos x) (pos y)) hh hi hc ?_ p hp
  intro p hp
  exact ⟨x, y, Map.find_of_mem h.nodup he, hp⟩

/-- **C99**: the same for a facet that is added in the course of a history. -/
theorem C99_covered_added {edges segs next} (h : Mesh edges segs next) (pos : Nat → K × K) {calls calls' : List Call}
    (hc : ∀ c ∈ calls, PlainCall c) (hc' : ∀ c ∈ calls', PlainCall c) {f f' f'' : Full}
    (hh : History pos ⟨ofExplicit edges segs next, [], []⟩ calls f) {x y m : Nat} (hnot : Map.find f.s.segs (sortIds [x, y]) = none)
    (hs : Step pos f (.add x y m) f') (hh' : History pos f' calls' f'') (p : K × K) (hp : OnSegment p (pos x) (pos y)) :
    ∃ a b, Map.find f''.s.segs (sortIds [a, b]) = some m ∧ OnSegment p (pos a) (pos b) := by
  have hG : Closed pos true (fun _ _ => True) := ⟨fun _ _ _ _ _ _ => ⟨trivial, trivial⟩, Or.inl rfl⟩
  have i1 := finv_history hG hh (finv_init h true (Good := fun _ _ => True) (fun _ _ => trivial)) (fun _ => hc) (fun _ _ _ _ => trivial)
  have i2 := finv_step hG hs i1 (fun _ => trivial) (fun _ _ _ _ => trivial)
  refine covered_history (P := fun p => OnSegment p (pos x) (pos y)) hh' i2 hc' ?_ p hp
  intro p hp
  refine ⟨x, y, ?_, hp⟩
  cases hs with
  | add hab he =>
    unfold addInterface
    rw [if_neg]
    · simp only
      rw [Map.find_insert_new hnot, if_pos (show key x y = sortIds [x, y] from rfl)]
    · intro hb
      have := (flags_of_bulk hb).2.2
      rw [show key x y = sortIds [x, y] from rfl, hnot] at this
      simp at this

end

/-- **C99**: reading the marker of an interface element returns it and changes nothing. -/
theorem C99_read (s : State) (l : List Nat) (m : Nat) (h : Map.find s.segs (sortIds l) = some m) : domainMarker s l = (m, s) := by
  unfold domainMarker
  rw [h]

/-- **C146** (not guaranteed): without assertions, reading the marker of an interface element that was refined meanwhile (a father, or an element kept by
the user) makes it an interface segment again. -/
theorem C146_read_false :
    ¬ ∀ (s : State) (l : List Nat), isInterfaceGrid (domainMarker s l).2 l = isInterfaceGrid s l := by
  intro h
  have := h (ofExplicit [key 0 1] [] 2) [0, 1]
  revert this
  decide

/-! ### A concrete case

Two triangles `0 1 2` and `1 2 3`, the diagonal `1 2` is the interface with marker 7. -/

def exEdges : List (List Nat) := [key 0 1, key 0 2, key 1 2, key 1 3, key 2 3]

def exSegs : List (List Nat × Nat) := [(key 1 2, 7)]

theorem ex_mesh : Mesh exEdges exSegs 4 := by
  refine ⟨?_, ?_, ?_⟩
  · intro e he
    simp only [exEdges, List.mem_cons, List.not_mem_nil, or_false] at he
    rcases he with rfl | rfl | rfl | rfl | rfl
    · exact ⟨0, 1, by decide, rfl, by decide, by decide⟩
    · exact ⟨0, 2, by decide, rfl, by decide, by decide⟩
    · exact ⟨1, 2, by decide, rfl, by decide, by decide⟩
    · exact ⟨1, 3, by decide, rfl, by decide, by decide⟩
    · exact ⟨2, 3, by decide, rfl, by decide, by decide⟩
  · decide
  · decide

/-- Vertex 4 is the midpoint of the diagonal. -/
def exPos : Nat → ℚ × ℚ
  | 0 => (0, 0)
  | 1 => (2, 0)
  | 2 => (0, 2)
  | 3 => (2, 2)
  | _ => (1, 1)

def exSplit : List (List Nat) := splitList exEdges 1 2 4 [0, 3]

def exAfter : State := ⟨[(key 4 1, 7), (key 4 2, 7)], fun v => if v = 4 then true else (ofExplicit exEdges exSegs 4).flag v, exSplit, 5⟩

/-- The interface is refined once; both halves have the marker 7. -/
theorem ex_history : History exPos ⟨ofExplicit exEdges exSegs 4, [], []⟩ [.refine 1 2, .adapt] ⟨exAfter, [], []⟩ := by
  refine History.snoc (l := [.refine 1 2]) (History.snoc (l := []) History.nil (Step.refine (by decide) (by decide))) ?_
  have hb : isInterfaceBulk (ofExplicit exEdges exSegs 4) [1, 2] = true := by decide
  refine Step.adapt (s1 := exAfter) (Many.cons (s1 := exAfter) ⟨?_, ?_⟩ Many.nil) Many.nil
  · simp only [hb]
    refine Insert.interface (v := 4) (E' := exSplit) (s' := ⟨exAfter.segs, exAfter.flag, exEdges, 4⟩) (by decide) ?_ ?_
    · refine splitList_ok 4 (by decide) ?_
      intro c hc
      simp only [List.mem_cons, List.not_mem_nil, or_false] at hc
      rcases hc with rfl | rfl
      · exact ⟨key 0 1, by decide, by decide⟩
      · exact ⟨key 1 3, by decide, by decide⟩
    · rfl
  · intro a b i he _
    simp only [Req.edge.injEq] at he
    obtain ⟨rfl, rfl, -⟩ := he
    exact ⟨1 / 2, by norm_num, by norm_num, by simp [exPos, exAfter]; norm_num⟩

example : ∃ x y, ((∃ e ∈ exSegs, e.1 = sortIds [x, y] ∧ e.2 = 7) ∨ Call.add x y 7 ∈ [Call.refine 1 2, .adapt]) ∧
    ∀ p, OnSegment p (exPos 4) (exPos 2) → OnSegment p (exPos x) (exPos y) :=
  C99_inherited ex_mesh exPos (by intro c hc; simp at hc; rcases hc with rfl | rfl <;> trivial) ex_history (a := 4) (b := 2) (by decide)

example : ∃ a b, Map.find exAfter.segs (sortIds [a, b]) = some 7 ∧ OnSegment (1 / 2, 3 / 2) (exPos a) (exPos b) :=
  C99_covered ex_mesh exPos (by intro c hc; simp at hc; rcases hc with rfl | rfl <;> trivial) ex_history (x := 1) (y := 2) (by decide) _
    ⟨3 / 4, by norm_num, by norm_num, by simp [exPos]; norm_num⟩

example : domainMarker exAfter [2, 4] = (7, exAfter) := C99_read _ _ 7 (by decide)

/-! ### What is not guaranteed -/

def exGrow : State := { connect (ofExplicit exEdges exSegs 4) 4 1 with
  edges := exEdges ++ [key 4 1, key 4 2, key 4 3], next := 5 }

/-- **C146** (not guaranteed): an interface element that extends the interface does not get the marker of the interface it extends, but 1. -/
theorem C146_extend_false :
    ¬ ∀ (edges : List (List Nat)) (segs : List (List Nat × Nat)) (next m : Nat) (pos : Nat → ℚ × ℚ) (calls : List Call) (f : Full), Mesh edges segs next →
      (∀ e ∈ segs, e.2 = m) → (∀ a b m', Call.add a b m' ∉ calls) → History pos ⟨ofExplicit edges segs next, [], []⟩ calls f →
      ∀ k m', Map.find f.s.segs k = some m' → m' = m := by
  intro h
  have hh : History exPos ⟨ofExplicit exEdges exSegs 4, [], []⟩ [.extend 1, .adapt] ⟨exGrow, [], []⟩ := by
    refine History.snoc (l := [.extend 1]) (History.snoc (l := []) History.nil (Step.extend (by decide) (by decide))) ?_
    refine Step.adapt (s1 := exGrow) (Many.cons (s1 := exGrow) ⟨?_, by simp⟩ Many.nil) Many.nil
    refine Insert.extend (v := 4) (E' := exEdges ++ [key 4 1, key 4 2, key 4 3]) (by decide) ⟨[1, 2, 3], ?_, ?_⟩ (by decide)
    · intro c hc
      simp only [List.mem_cons, List.not_mem_nil, or_false] at hc
      rcases hc with rfl | rfl | rfl
      · exact ⟨key 1 2, by decide, by decide⟩
      · exact ⟨key 1 2, by decide, by decide⟩
      · exact ⟨key 1 3, by decide, by decide⟩
    · intro e
      simp [ofExplicit, eq_comm (a := e)]
  have := h exEdges exSegs 4 7 exPos _ _ ex_mesh (by decide) (by simp) hh (key 4 1) 1 (by decide)
  exact absurd this (by decide)

/-- An interface `0 1`, `1 2` with the markers 1 and 2, vertices 3 and 4 on both sides. -/
def joinEdges : List (List Nat) := [key 0 1, key 1 2, key 0 3, key 1 3, key 2 3, key 0 4, key 1 4, key 2 4]

def joinSegs : List (List Nat × Nat) := [(key 0 1, 1), (key 1 2, 2)]

theorem join_mesh : Mesh joinEdges joinSegs 5 := by
  refine ⟨?_, ?_, ?_⟩
  · intro e he
    simp only [joinEdges, List.mem_cons, List.not_mem_nil, or_false] at he
    rcases he with rfl | rfl | rfl | rfl | rfl | rfl | rfl | rfl
    · exact ⟨0, 1, by decide, rfl, by decide, by decide⟩
    · exact ⟨1, 2, by decide, rfl, by decide, by decide⟩
    · exact ⟨0, 3, by decide, rfl, by decide, by decide⟩
    · exact ⟨1, 3, by decide, rfl, by decide, by decide⟩
    · exact ⟨2, 3, by decide, rfl, by decide, by decide⟩
    · exact ⟨0, 4, by decide, rfl, by decide, by decide⟩
    · exact ⟨1, 4, by decide, rfl, by decide, by decide⟩
    · exact ⟨2, 4, by decide, rfl, by decide, by decide⟩
  · decide
  · decide

def joinEdges' : List (List Nat) := [key 0 2, key 0 3, key 2 3, key 0 4, key 2 4]

/-- **C146** (not guaranteed): if the vertex between two parts of the interface with different markers is removed, one of the markers is lost; which one
depends on the order in which the edges at the vertex are visited. -/
theorem C146_join_false :
    (∃ f, History exPos ⟨ofExplicit joinEdges joinSegs 5, [], []⟩ [.remove 1, .adapt] f ∧ f.s.segs = [(key 0 2, 2)]) ∧
      ∃ f, History exPos ⟨ofExplicit joinEdges joinSegs 5, [], []⟩ [.remove 1, .adapt] f ∧ f.s.segs = [(key 0 2, 1)] := by
  have main : ∀ (star : List Nat) (m x y : Nat), removeFromInterface (ofExplicit joinEdges joinSegs 5) 1 star =
        ({ ofExplicit joinEdges joinSegs 5 with segs := [(key 0 2, m)] }, some (x, y)) → star.Nodup →
      (∀ o, o ∈ star ↔ o = 0 ∨ o = 2 ∨ o = 3 ∨ o = 4) → key x y = key 0 2 →
      ∃ f, History exPos ⟨ofExplicit joinEdges joinSegs 5, [], []⟩ [.remove 1, .adapt] f ∧ f.s.segs = [(key 0 2, m)] := by
    intro star m x y hr hnd hs hxy
    refine ⟨⟨⟨[(key 0 2, m)], (ofExplicit joinEdges joinSegs 5).flag, joinEdges', 5⟩, [], []⟩, ?_, rfl⟩
    refine History.snoc (l := [.remove 1]) (History.snoc (l := []) History.nil Step.remove) ?_
    refine Step.adapt Many.nil (Many.cons ?_ Many.nil)
    refine Remove.join (star := star) (o := x) (o' := y) (E' := joinEdges') (s' := { ofExplicit joinEdges joinSegs 5 with segs := [(key 0 2, m)] }) (by decide) ⟨hnd, ?_⟩ hr ?_ (by rw [hxy]; decide)
    · intro o
      rw [hs]
      constructor
      · rintro (rfl | rfl | rfl | rfl) <;> decide
      · rintro ⟨-, ho⟩
        simp only [ofExplicit, joinEdges, List.mem_cons, List.not_mem_nil, or_false, key_eq_iff] at ho
        omega
    · constructor
      · decide
      · intro e he
        simp only [joinEdges', List.mem_cons, List.not_mem_nil, or_false] at he
        rcases he with rfl | rfl | rfl | rfl | rfl
        · exact ⟨by decide, Or.inr ⟨0, 2, by decide, rfl, ⟨key 0 1, by decide, by decide⟩, ⟨key 1 2, by decide, by decide⟩⟩⟩
        all_goals exact ⟨by decide, Or.inl (by decide)⟩
  constructor
  · refine main [0, 3, 2, 4] 2 0 2 rfl (by decide) (fun o => ?_) rfl
    simp only [List.mem_cons, List.not_mem_nil, or_false]
    omega
  · refine main [2, 4, 0, 3] 1 2 0 rfl (by decide) (fun o => ?_) (key_comm _ _)
    simp only [List.mem_cons, List.not_mem_nil, or_false]
    omega

end Verif.Markers
