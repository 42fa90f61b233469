import Verif.InterfaceTransfer.Examples

/-!
# C199, C200: the value on an element that is added to the interface
-/

namespace Verif.InterfaceTransfer

open Verif RefElem InterfaceOps Transfer

variable {ident : List ℕ → ℕ} {pos : ℕ → ℝ × ℝ} {s0 : State} {val : ℕ → ℝ}

section

variable {v0 o : ℕ} {w : ℝ} {g : Segment ℝ} {t : IState ℝ} {corner : List ℕ → (ℝ × ℝ) × (ℝ × ℝ)} {order : List (List ℕ)}

/-- What the request does. -/
theorem extend_spec (ok : Ok s0) (ha : IInsert pos ⟨s0, []⟩ ⟨.extend v0, w, [g]⟩ t) :
    (keys t.s = keys s0 ∧ t.comp = []) ∨ ∃ v, s0.next ≤ v ∧ (∀ k, k ∈ keys t.s ↔ k ∈ keys s0 ∨ k = key v v0) ∧
      (t.s.segs.map Prod.fst).Nodup ∧ ∀ k, Map.find t.comp k = if k = key v v0 then some [g] else none := by
  cases ha with
  | @extend _ v E' _ _ hv hs he =>
    refine Or.inr ⟨v, hv, ?_, Map.nodup_insert ok.nodup _ _, fun k => find_mark_one [] _ _ rfl k⟩
    intro k
    unfold keys
    rw [List.mem_toFinset, List.mem_toFinset]
    exact Map.mem_keys_insert
  | noEdge => exact Or.inl ⟨rfl, rfl⟩

theorem extend_ids (hi : Function.Injective ident) {v : ℕ}
    (hnd : (t.s.segs.map Prod.fst).Nodup) (ho : order.Perm (t.s.segs.map Prod.fst))
    (hc : ∀ k, Map.find t.comp k = if k = key v v0 then some [g] else none) : IIdsOk (order.map (leaf ident corner t)) := by
  have hnd' : order.Nodup := ho.nodup_iff.2 hnd
  constructor
  · have h1 : ((order.map (leaf ident corner t)).map (·.id)).Nodup := by
      rw [List.map_map]
      exact hnd'.map hi
    exact List.Nodup.sublist (List.Sublist.map _ List.filter_sublist) h1
  · intro l hl hln o' ho' l' hl' hln' hne
    obtain ⟨j, hj, rfl⟩ := List.mem_map.1 hl
    obtain ⟨j', hj', rfl⟩ := List.mem_map.1 hl'
    simp only [leaf] at hln hln'
    have e : ∀ k, (Map.find t.comp k).isSome = true → k = key v v0 := by
      intro k hk
      by_contra h
      rw [hc, if_neg h] at hk
      simp at hk
    rw [e j hln, e j' hln'] at hne
    exact absurd rfl hne

/-- C199: the elements that were there keep their values. -/
theorem C199_unchanged (hi : Function.Injective ident) (ok : Ok s0) (ha : IInsert pos ⟨s0, []⟩ ⟨.extend v0, w, [g]⟩ t)
    (a b : ℕ) (hab : Elem s0 a b) :
    Elem t.s a b ∧ adaptData ident corner t order val (ident (sortIds [a, b])) = val (ident (sortIds [a, b])) := by
  have hnone : key a b ∈ keys t.s ∧ Map.find t.comp (key a b) = none := by
    rcases extend_spec ok ha with ⟨h1, h2⟩ | ⟨v, h1, h2, -, h3⟩
    · rw [h1, h2]; exact ⟨elem_iff.1 hab, rfl⟩
    · refine ⟨(h2 _).2 (Or.inl (elem_iff.1 hab)), ?_⟩
      rw [h3, if_neg]
      intro e
      have := key_lt ok (elem_iff.1 hab)
      have := key_eq_iff.1 e
      omega
  refine ⟨elem_iff.2 hnone.1, C83_unchanged _ _ _ ?_⟩
  intro l hl hln e
  obtain ⟨j, hj, rfl⟩ := List.mem_map.1 hl
  simp only [leaf] at hln e
  have e' : j = key a b := hi e
  rw [e', hnone.2] at hln
  simp at hln

/-- C199: the new element gets the value of the element that it continues, if that one is longer. -/
theorem C199_shorter (hi : Function.Injective ident) (ok : Ok s0) (hg : Copy ident pos (sortIds [v0, o]) g)
    (ha : IInsert pos ⟨s0, []⟩ ⟨.extend v0, w, [g]⟩ t) (hc : Corners pos corner t.s) (ho : order.Perm (t.s.segs.map Prod.fst))
    (a b : ℕ) (hab : Elem t.s a b) (hnew : ¬ Elem s0 a b) (hlen : length (pos a) (pos b) < length (pos v0) (pos o)) :
    adaptData ident corner t order val (ident (sortIds [a, b])) = val (ident (sortIds [v0, o])) := by
  rcases extend_spec ok ha with ⟨h1, h2⟩ | ⟨v, h1, h2, hnd, h3⟩
  · exact absurd (elem_iff.2 (h1 ▸ elem_iff.1 hab)) hnew
  · have hk : key a b = key v v0 := ((h2 _).1 (elem_iff.1 hab)).resolve_left fun h => hnew (elem_iff.2 h)
    have hf : Map.find t.comp (key a b) = some [g] := by rw [h3, if_pos hk]
    have := longer_value _ (extend_ids hi hnd ho h3) val (leaf ident corner t (key a b))
      (List.mem_map.2 ⟨key a b, ho.mem_iff.2 (List.mem_toFinset.1 (elem_iff.1 hab)), rfl⟩) (by simp [leaf, hf]) g (by simp [leaf, hf]) ?_
    · exact this.trans (by rw [hg.1])
    · rw [volume2_eq, volume2_eq, copy_length hg, len_key]
      refine pow_lt_pow_left₀ ?_ (length_nonneg _ _) two_ne_zero
      show length (corner (key a b)).1 (corner (key a b)).2 < _
      rw [corner_length (hc a b hab), len_key]
      exact hlen

/-- C199: otherwise it gets that value times the length of the projection of the old element to the new one, divided by the length of the new one. -/
theorem C199_longer (hi : Function.Injective ident) (ok : Ok s0) (hg : Copy ident pos (sortIds [v0, o]) g)
    (ha : IInsert pos ⟨s0, []⟩ ⟨.extend v0, w, [g]⟩ t) (hc : Corners pos corner t.s) (ho : order.Perm (t.s.segs.map Prod.fst))
    (a b : ℕ) (hab : Elem t.s a b) (hnew : ¬ Elem s0 a b) (hlen : length (pos v0) (pos o) ≤ length (pos a) (pos b)) :
    adaptData ident corner t order val (ident (sortIds [a, b])) =
      |((pos o).1 - (pos v0).1) * ((pos b).1 - (pos a).1) + ((pos o).2 - (pos v0).2) * ((pos b).2 - (pos a).2)| / length (pos a) (pos b) ^ 2 *
        val (ident (sortIds [v0, o])) := by
  rcases extend_spec ok ha with ⟨h1, h2⟩ | ⟨v, h1, h2, hnd, h3⟩
  · exact absurd (elem_iff.2 (h1 ▸ elem_iff.1 hab)) hnew
  · have hk : key a b = key v v0 := ((h2 _).1 (elem_iff.1 hab)).resolve_left fun h => hnew (elem_iff.2 h)
    have hf : Map.find t.comp (key a b) = some [g] := by rw [h3, if_pos hk]
    have hl := corner_length (hc a b hab)
    rw [len_key] at hl
    have := shorter_value _ (extend_ids hi hnd ho h3) val (leaf ident corner t (key a b))
      (List.mem_map.2 ⟨key a b, ho.mem_iff.2 (List.mem_toFinset.1 (elem_iff.1 hab)), rfl⟩) (by simp [leaf, hf]) g (by simp [leaf, hf]) ?_
    · refine this.trans ?_
      rw [hg.1]
      congr 1
      unfold Segment.volumeIn Segment.loc
      rw [← sub_div, abs_div, volume2_eq, abs_of_nonneg (sq_nonneg (length _ _))]
      show _ / length (corner (key a b)).1 (corner (key a b)).2 ^ 2 = _
      rw [hl]
      congr 1
      show |(g.b.1 - (corner (key a b)).1.1) * ((corner (key a b)).2.1 - (corner (key a b)).1.1) +
          (g.b.2 - (corner (key a b)).1.2) * ((corner (key a b)).2.2 - (corner (key a b)).1.2) -
        ((g.a.1 - (corner (key a b)).1.1) * ((corner (key a b)).2.1 - (corner (key a b)).1.1) +
          (g.a.2 - (corner (key a b)).1.2) * ((corner (key a b)).2.2 - (corner (key a b)).1.2))| = _
      have hcn : corner (key a b) = (pos a, pos b) ∨ corner (key a b) = (pos b, pos a) := hc a b hab
      rcases (copy_key hg).2 with ⟨e1, e2⟩ | ⟨e1, e2⟩ <;> rcases hcn with e | e <;> rw [e, e1, e2] <;> simp only
      · congr 1; ring
      · rw [← abs_neg]; congr 1; ring
      · rw [← abs_neg]; congr 1; ring
      · congr 1; ring
    · rw [volume2_eq, volume2_eq, copy_length hg, len_key]
      refine pow_le_pow_left₀ (length_nonneg _ _) ?_ 2
      show _ ≤ length (corner (key a b)).1 (corner (key a b)).2
      rw [hl]
      exact hlen

end

/-! ## A case -/

/-- The vertices of `exState`, and the new vertex 5 to the right of 3. -/
noncomputable def extPos (x : ℝ) : ℕ → ℝ × ℝ
  | 5 => (4 + x, 0)
  | n => exPos n

theorem ext_runs (ident : List ℕ → ℕ) (x : ℝ) : ∃ t, IInsert (extPos x) ⟨exState, []⟩ ⟨.extend 3, 0, [⟨ident (key 3 2), exPos 3, exPos 2⟩]⟩ t ∧
    t.s.segs = [(key 0 1, 7), (key 1 2, 7), (key 2 3, 7), (key 5 3, 1)] := by
  refine ⟨_, .extend (v := 5) (E' := exState.edges ++ [key 5 3, key 5 4]) (by decide) ⟨[3, 4], ?_, ?_⟩ (by decide), ?_⟩
  · intro c hc
    simp only [List.mem_cons, List.not_mem_nil, or_false] at hc
    rcases hc with rfl | rfl
    · exact ⟨key 3 4, by decide, by decide⟩
    · exact ⟨key 3 4, by decide, by decide⟩
  · intro e
    simp
  · show (connect exState 5 3).segs = _
    decide

/-- The corners in the order of the ids. -/
noncomputable def extCorner (x : ℝ) (k : List ℕ) : (ℝ × ℝ) × (ℝ × ℝ) := (extPos x (k.headD 0), extPos x (k.getLastD 0))

theorem ext_corners (x : ℝ) (s : State) : Corners (extPos x) (extCorner x) s := by
  intro a b _
  show extCorner x (key a b) = _ ∨ extCorner x (key a b) = _
  rcases key_cases a b with e | e <;> rw [e]
  · exact Or.inl rfl
  · exact Or.inr rfl

theorem ext_length (x : ℝ) (hx : 0 ≤ x) : length (extPos x 5) (extPos x 3) = x ∧ length (extPos x 3) (extPos x 2) = 2 := by
  constructor
  · rw [length_comm, length_smul (w := x) hx (1, 0) (by simp [extPos, exPos]) (by simp [extPos, exPos])]
    simp
  · rw [length_comm, length_smul (w := 2) (by norm_num) (1, 0) (by simp [extPos, exPos]; norm_num) (by simp [extPos, exPos])]
    simp

/-- Hypotheses of `C199_shorter`: the element 2 3 of length 2 is continued by an element of length 1. -/
example (ident : List ℕ → ℕ) : ∃ t, IInsert (extPos 1) ⟨exState, []⟩ ⟨.extend 3, 0, [⟨ident (key 3 2), exPos 3, exPos 2⟩]⟩ t ∧
    Elem exState 3 2 ∧ Elem t.s 5 3 ∧ ¬ Elem exState 5 3 ∧ length (extPos 1 5) (extPos 1 3) < length (extPos 1 3) (extPos 1 2) := by
  obtain ⟨t, h1, h2⟩ := ext_runs ident 1
  refine ⟨t, h1, by decide, ?_, by decide, ?_⟩
  · unfold Elem; rw [h2]; decide
  · rw [(ext_length 1 (by norm_num)).1, (ext_length 1 (by norm_num)).2]; norm_num

/-- C200 is false: an element of length 4 that continues an element of length 2 in the same direction gets half of its value. -/
theorem C200_value_false : ¬ ∀ (ident : List ℕ → ℕ) (pos : ℕ → ℝ × ℝ) (s0 : State) (val : ℕ → ℝ) (v0 o : ℕ) (w : ℝ) (g : Segment ℝ)
    (t : IState ℝ) (corner : List ℕ → (ℝ × ℝ) × (ℝ × ℝ)) (order : List (List ℕ)), Function.Injective ident → Ok s0 → Elem s0 v0 o →
    Copy ident pos (sortIds [v0, o]) g → IInsert pos ⟨s0, []⟩ ⟨.extend v0, w, [g]⟩ t → Corners pos corner t.s →
    order.Perm (t.s.segs.map Prod.fst) → ∀ a b, Elem t.s a b → ¬ Elem s0 a b →
    adaptData ident corner t order val (ident (sortIds [a, b])) = val (ident (sortIds [v0, o])) := by
  intro h
  obtain ⟨ident, hi⟩ : ∃ f : List ℕ → ℕ, Function.Injective f := ⟨Encodable.encode, Encodable.encode_injective⟩
  obtain ⟨t, h1, h2⟩ := ext_runs ident 4
  have hel : Elem exState 3 2 := by decide
  have hnew : ¬ Elem exState 5 3 := by decide
  have htl : Elem t.s 5 3 := by unfold Elem; rw [h2]; decide
  have hg : Copy ident (extPos 4) (sortIds [3, 2]) ⟨ident (key 3 2), exPos 3, exPos 2⟩ := ⟨rfl, 3, 2, rfl, rfl, rfl⟩
  have e1 := h ident (extPos 4) exState (fun _ => 1) 3 2 0 _ t (extCorner 4) _ hi ex_ok hel hg h1 (ext_corners 4 _) (List.Perm.refl _) 5 3 htl hnew
  have e2 := C199_longer (val := fun _ => 1) hi ex_ok hg h1 (ext_corners 4 _) (List.Perm.refl _) 5 3 htl hnew
    (by rw [(ext_length 4 (by norm_num)).1, (ext_length 4 (by norm_num)).2]; norm_num)
  rw [e1, (ext_length 4 (by norm_num)).1] at e2
  simp only [extPos, exPos] at e2
  norm_num at e2

end Verif.InterfaceTransfer
