import Verif.InterfaceTransfer.Run

/-!
# C197: theorems
-/

namespace Verif.InterfaceTransfer

open Verif RefElem InterfaceOps Transfer

variable {ident : List ℕ → ℕ} {pos : ℕ → ℝ × ℝ} {s0 : State} {val : ℕ → ℝ}

/-! ## The value of one new element -/

theorem volume2_eq (g : Segment ℝ) : g.volume2 = length g.a g.b ^ 2 := by
  unfold length Segment.volume2
  rw [Real.sq_sqrt (add_nonneg (sq_nonneg _) (sq_nonneg _))]

theorem length_nonneg (p q : ℝ × ℝ) : 0 ≤ length p q := Real.sqrt_nonneg _

/-- One old element that is longer: its value. -/
theorem longer_value (leaves : List (ILeaf ℝ)) (h : IIdsOk leaves) (s : ℕ → ℝ) (l : ILeaf ℝ) (hl : l ∈ leaves) (hn : l.isNew = true)
    (o : Segment ℝ) (ho : l.children = [o]) (hlen : l.volume2 < o.volume2) : iTransfer ip0 leaves s l.id = s o.id := by
  obtain ⟨s', hs, hval⟩ := iTransfer_leaf leaves h s l hl hn
  rw [hval, iLeafStep_calls, if_pos hn]
  have c1 : icall l true o = .prolong o l.toSegment true := if_pos hlen
  simp only [icallsOf, ho, List.map_nil, c1, List.foldl_cons, List.foldl_nil, IHandle.apply, ip0, if_true]
  exact hs o (by simp [ho])

/-- One old element that is not longer: its value times the projected length. -/
theorem shorter_value (leaves : List (ILeaf ℝ)) (h : IIdsOk leaves) (s : ℕ → ℝ) (l : ILeaf ℝ) (hl : l ∈ leaves) (hn : l.isNew = true)
    (o : Segment ℝ) (ho : l.children = [o]) (hlen : o.volume2 ≤ l.volume2) :
    iTransfer ip0 leaves s l.id = o.volumeIn l.toSegment * s o.id := by
  obtain ⟨s', hs, hval⟩ := iTransfer_leaf leaves h s l hl hn
  rw [hval, iLeafStep_calls, if_pos hn]
  have c1 : icall l true o = .restrict l.toSegment o true := if_neg (not_lt.2 hlen)
  simp only [icallsOf, ho, List.map_nil, c1, List.foldl_cons, List.foldl_nil, IHandle.apply, ip0, if_true, zero_add]
  rw [hs o (by simp [ho])]

/-- Two old elements that are not longer: the values times the projected lengths. -/
theorem two_value (leaves : List (ILeaf ℝ)) (h : IIdsOk leaves) (s : ℕ → ℝ) (l : ILeaf ℝ) (hl : l ∈ leaves) (hn : l.isNew = true)
    (o1 o2 : Segment ℝ) (ho : l.children = [o1, o2]) (hself : o2.id ≠ l.id)
    (hlen : o1.volume2 ≤ l.volume2 ∧ o2.volume2 ≤ l.volume2) :
    iTransfer ip0 leaves s l.id = o1.volumeIn l.toSegment * s o1.id + o2.volumeIn l.toSegment * s o2.id := by
  obtain ⟨s', hs, hval⟩ := iTransfer_leaf leaves h s l hl hn
  rw [hval, iLeafStep_calls, if_pos hn]
  have c1 : icall l true o1 = .restrict l.toSegment o1 true := if_neg (not_lt.2 hlen.1)
  have c2 : icall l false o2 = .restrict l.toSegment o2 false := if_neg (not_lt.2 hlen.2)
  simp only [icallsOf, ho, List.map_cons, List.map_nil, c1, c2]
  simp only [List.foldl_cons, List.foldl_nil, IHandle.apply, ip0, if_true]
  simp only [hself, if_false, Bool.false_eq_true, zero_add]
  rw [hs o1 (by simp [ho]), hs o2 (by simp [ho])]

/-- Old and new element on a straight line: the projected length is the quotient of the lengths. -/
theorem volumeIn_line {o l : Segment ℝ} {p q : ℝ} (hl : length l.a l.b ≠ 0) (ha : o.a = onLine l.a l.b p) (hb : o.b = onLine l.a l.b q) :
    o.volumeIn l = length o.a o.b / length l.a l.b := by
  have hL : l.volume2 ≠ 0 := by rw [volume2_eq]; exact pow_ne_zero 2 hl
  have hloc : ∀ r, l.loc (onLine l.a l.b r) = r := by
    intro r
    unfold Segment.loc
    rw [div_eq_iff hL]
    unfold Segment.volume2
    simp only [onLine]
    ring
  unfold Segment.volumeIn
  rw [ha, hb, hloc, hloc, eq_div_iff hl]
  have h2 : (|q - p| * length l.a l.b) ^ 2 = length (onLine l.a l.b p) (onLine l.a l.b q) ^ 2 := by
    rw [mul_pow, sq_abs]
    unfold length
    rw [Real.sq_sqrt (add_nonneg (sq_nonneg _) (sq_nonneg _)), Real.sq_sqrt (add_nonneg (sq_nonneg _) (sq_nonneg _))]
    simp only [onLine]
    ring
  exact (pow_left_inj₀ (mul_nonneg (abs_nonneg _) (length_nonneg _ _)) (length_nonneg _ _) two_ne_zero).1 h2

/-- The corners of the leaf elements are those of the vertices, in some order. -/
def Corners (pos : ℕ → ℝ × ℝ) (corner : List ℕ → (ℝ × ℝ) × (ℝ × ℝ)) (s : State) : Prop :=
  ∀ a b, Elem s a b → corner (sortIds [a, b]) = (pos a, pos b) ∨ corner (sortIds [a, b]) = (pos b, pos a)

theorem Between.strict {v a b : ℕ} (h : Between pos v a b) (hab : pos a ≠ pos b) : len pos (key v a) < len pos (key a b) := by
  rw [← h.length]
  have := len_pos (h.ne hab).2
  linarith

theorem corner_length {corner : List ℕ → (ℝ × ℝ) × (ℝ × ℝ)} {a b : ℕ}
    (h : corner (key a b) = (pos a, pos b) ∨ corner (key a b) = (pos b, pos a)) : length (corner (key a b)).1 (corner (key a b)).2 = len pos (key a b) := by
  rw [len_key]
  rcases h with h | h <;> rw [h]
  exact length_comm _ _

/-- The points on a straight line, in both directions. -/
theorem Between.line {v o o' : ℕ} (h : Between pos v o o') {p q : ℝ × ℝ} (hpq : (p, q) = (pos o, pos o') ∨ (p, q) = (pos o', pos o)) :
    ∀ x, x = v ∨ x = o ∨ x = o' → ∃ r, pos x = onLine p q r := by
  obtain ⟨w, w0, w1, e⟩ := h
  rcases hpq with hpq | hpq <;> simp only [Prod.mk.injEq] at hpq <;> obtain ⟨rfl, rfl⟩ := hpq
  · rintro x (rfl | rfl | rfl)
    · refine ⟨1 - w, ?_⟩
      rw [e]; unfold onLine; ext <;> simp only <;> ring
    · refine ⟨0, ?_⟩
      unfold onLine; ext <;> simp only <;> ring
    · refine ⟨1, ?_⟩
      unfold onLine; ext <;> simp only <;> ring
  · rintro x (rfl | rfl | rfl)
    · refine ⟨w, ?_⟩
      rw [e]; unfold onLine; ext <;> simp only <;> ring
    · refine ⟨1, ?_⟩
      unfold onLine; ext <;> simp only <;> ring
    · refine ⟨0, ?_⟩
      unfold onLine; ext <;> simp only <;> ring

theorem copy_line {v o o' x y : ℕ} (h : Between pos v o o') {p q : ℝ × ℝ} (hpq : (p, q) = (pos o, pos o') ∨ (p, q) = (pos o', pos o))
    (hx : x = v ∨ x = o ∨ x = o') (hy : y = v ∨ y = o ∨ y = o') {g : Segment ℝ} (hg : Copy ident pos (key x y) g) :
    ∃ r r', g.a = onLine p q r ∧ g.b = onLine p q r' := by
  obtain ⟨r, hr⟩ := h.line hpq x hx
  obtain ⟨r', hr'⟩ := h.line hpq y hy
  rcases (copy_key hg).2 with ⟨h1, h2⟩ | ⟨h1, h2⟩
  · exact ⟨r, r', h1.trans hr, h2.trans hr'⟩
  · exact ⟨r', r, h1.trans hr', h2.trans hr⟩

/-- The loop gives every element the value that belongs to its entry in the map. -/
theorem good_value {t : IState ℝ} {corner : List ℕ → (ℝ × ℝ) × (ℝ × ℝ)} {order : List (List ℕ)} (h0 : ProperInterface pos s0)
    (hi : Function.Injective ident) (h : Good ident pos s0 val t) (hc : Corners pos corner t.s)
    (ho : order.Perm (t.s.segs.map Prod.fst)) {k : List ℕ} (hk : k ∈ keys t.s) :
    adaptData ident corner t order val (ident k) = expect ident pos val t.comp k := by
  have hmem : ∀ {j : List ℕ}, j ∈ order ↔ j ∈ keys t.s := by
    intro j
    unfold keys
    rw [List.mem_toFinset, ho.mem_iff]
  have hnd : order.Nodup := ho.nodup_iff.2 h.proper.ok.nodup
  have hids : IIdsOk (order.map (leaf ident corner t)) := by
    constructor
    · have h1 : ((order.map (leaf ident corner t)).map (·.id)).Nodup := by
        rw [List.map_map]
        exact hnd.map hi
      exact List.Nodup.sublist (List.Sublist.map _ List.filter_sublist) h1
    · intro l hl hln o ho' l' hl' hln' _
      obtain ⟨j, hj, rfl⟩ := List.mem_map.1 hl
      obtain ⟨j', hj', rfl⟩ := List.mem_map.1 hl'
      have hjk := hmem.1 hj
      have hjk' := hmem.1 hj'
      simp only [leaf] at ho' hln ⊢
      have : ∃ f, o.id = ident f ∧ f ∉ keys t.s := by
        rcases h.origin j hjk with ⟨h1, -⟩ | ⟨v, a, b, g, h1, h2, h3, h4, h5, h6, h7⟩ | ⟨v, p, p', g, g', h1, h2, h3, h4, h5, h6, h7, h8, h9⟩
        · rw [h1] at hln; simp at hln
        · rw [h7] at ho'
          simp only [Option.getD_some, List.mem_singleton] at ho'
          subst ho'
          exact ⟨_, h6.1, h4⟩
        · rw [h9] at ho'
          simp only [Option.getD_some, List.mem_cons, List.not_mem_nil, or_false] at ho'
          rcases ho' with rfl | rfl
          · exact ⟨_, h7.1, h3⟩
          · exact ⟨_, h8.1, h5⟩
      obtain ⟨f, hf, hfk⟩ := this
      rw [hf]
      intro e
      exact hfk (hi e ▸ hjk')
  have hl : leaf ident corner t k ∈ order.map (leaf ident corner t) := List.mem_map.2 ⟨k, hmem.2 hk, rfl⟩
  unfold adaptData
  rcases h.origin k hk with ⟨h1, h2⟩ | ⟨v, a, b, g, h1, h2, h3, h4, h5, h6, h7⟩ | ⟨v, o, o', g, g', h1, h2, h3, h4, h5, h6, h7, h8, h9⟩
  · rw [expect_none h1]
    refine C83_unchanged _ _ _ ?_
    intro l hl' hln e
    obtain ⟨j, hj, rfl⟩ := List.mem_map.1 hl'
    simp only [leaf] at hln e
    rw [hi e, h1] at hln
    simp at hln
  · rw [expect_one h7]
    refine longer_value _ hids val (leaf ident corner t k) hl (by simp [leaf, h7]) g (by simp [leaf, h7]) ?_
    have hab := h0.apart (elem_iff.2 h3)
    rw [volume2_eq, volume2_eq, copy_length h6]
    subst h1
    refine pow_lt_pow_left₀ ?_ (length_nonneg _ _) two_ne_zero
    show length (corner (key v a)).1 (corner (key v a)).2 < _
    rw [corner_length (hc v a (elem_iff.2 hk))]
    exact h5.strict hab
  · rw [expect_two h9]
    subst h1
    have hcn := hc o o' (elem_iff.2 hk)
    have hle := corner_length hcn
    have hab : pos o ≠ pos o' := h.proper.apart (elem_iff.2 hk)
    have hlen : length (corner (key o o')).1 (corner (key o o')).2 ≠ 0 := by
      rw [hle]
      exact (len_pos hab).ne'
    have hsum := h6.length
    have p1 := len_nonneg pos (key v o)
    have p2 := len_nonneg pos (key v o')
    obtain ⟨r1, r2, e1, e2⟩ := copy_line h6 hcn (Or.inl rfl) (Or.inr (Or.inl rfl)) h7
    obtain ⟨r3, r4, e3, e4⟩ := copy_line h6 hcn (Or.inl rfl) (Or.inr (Or.inr rfl)) h8
    have := two_value _ hids val (leaf ident corner t (key o o')) hl (by simp [leaf, h9]) g g' (by simp [leaf, h9]) ?_ ?_
    · rw [show ident (key o o') = (leaf ident corner t (key o o')).id from rfl, this,
        volumeIn_line (l := (leaf ident corner t (key o o')).toSegment) hlen e1 e2,
        volumeIn_line (l := (leaf ident corner t (key o o')).toSegment) hlen e3 e4]
      have e : length (leaf ident corner t (key o o')).a (leaf ident corner t (key o o')).b = len pos (key o o') := hle
      rw [e, div_mul_eq_mul_div, div_mul_eq_mul_div, add_div]
    · rw [h8.1]
      intro e
      exact h5 (hi e ▸ hk)
    · rw [volume2_eq, volume2_eq, volume2_eq, copy_length h7, copy_length h8]
      have e : length (leaf ident corner t (key o o')).a (leaf ident corner t (key o o')).b = len pos (key o o') := hle
      rw [e]
      exact ⟨pow_le_pow_left₀ p1 (by linarith) 2, pow_le_pow_left₀ p2 (by linarith) 2⟩

/-! ## Theorems -/

section

variable {rs : List (IReq ℝ)} {vs : List ℕ} {t : IState ℝ} {corner : List ℕ → (ℝ × ℝ) × (ℝ × ℝ)} {order : List (List ℕ)}

/-- C197: the interface is proper after the adaptation. -/
theorem C197_proper (h0 : ProperInterface pos s0) (hr : Requests ident pos s0 rs vs) (ha : Adapts ident pos s0 rs vs t) : ProperInterface pos t.s :=
  (good_adapts (val := fun _ => 0) h0 hr ha).proper

/-- C197: the interface consists of the same points as before. -/
theorem C197_points (h0 : ProperInterface pos s0) (hr : Requests ident pos s0 rs vs) (ha : Adapts ident pos s0 rs vs t) (x : ℝ × ℝ) :
    (∃ a b, Elem t.s a b ∧ x ∈ segment ℝ (pos a) (pos b)) ↔ ∃ a b, Elem s0 a b ∧ x ∈ segment ℝ (pos a) (pos b) := by
  have hg := good_adapts (val := fun _ => 0) h0 hr ha
  have key : ∀ s, Ok s → ((∃ a b, Elem s a b ∧ x ∈ segment ℝ (pos a) (pos b)) ↔ ∃ k ∈ keys s, x ∈ points pos k) := by
    intro s hs
    constructor
    · rintro ⟨a, b, h1, h2⟩
      exact ⟨_, elem_iff.1 h1, by rwa [points_key]⟩
    · rintro ⟨k, hk, hx⟩
      obtain ⟨a, b, -, rfl⟩ := key_of_mem hs hk
      rw [points_key] at hx
      exact ⟨a, b, elem_iff.2 hk, hx⟩
  rw [key _ hg.proper.ok, key _ h0.ok]
  exact hg.shape x

/-- C197: after `adapt()` of the grid and `adapt(handle)` of the interface grid an interface element was there before and has its
old value; or it is a part of an old element and has its value; or it consists of two old elements and has the average of their values,
weighted by length. -/
theorem C197_values (hi : Function.Injective ident) (h0 : ProperInterface pos s0) (hr : Requests ident pos s0 rs vs)
    (ha : Adapts ident pos s0 rs vs t) (hc : Corners pos corner t.s) (ho : order.Perm (t.s.segs.map Prod.fst)) (a b : ℕ) (hab : Elem t.s a b) :
    (Elem s0 a b ∧ adaptData ident corner t order val (ident (sortIds [a, b])) = val (ident (sortIds [a, b]))) ∨
    (∃ c d, Elem s0 c d ∧ segment ℝ (pos a) (pos b) ⊆ segment ℝ (pos c) (pos d) ∧
      adaptData ident corner t order val (ident (sortIds [a, b])) = val (ident (sortIds [c, d]))) ∨
    ∃ v, Elem s0 v a ∧ Elem s0 v b ∧ Between pos v a b ∧
      adaptData ident corner t order val (ident (sortIds [a, b])) =
        (length (pos v) (pos a) * val (ident (sortIds [v, a])) + length (pos v) (pos b) * val (ident (sortIds [v, b]))) / length (pos a) (pos b) := by
  have hg := good_adapts (val := val) h0 hr ha
  have hv := good_value h0 hi hg hc ho (elem_iff.1 hab)
  rcases hg.origin _ (elem_iff.1 hab) with ⟨h1, h2⟩ | ⟨v, x, y, g, h1, h2, h3, h4, h5, h6, h7⟩ | ⟨v, p, p', g, g', h1, h2, h3, h4, h5, h6, h7, h8, h9⟩
  · exact Or.inl ⟨elem_iff.2 h2, hv.trans (expect_none h1)⟩
  · refine Or.inr (Or.inl ⟨x, y, elem_iff.2 h3, ?_, hv.trans ((expect_one h7).trans (by rw [h6.1]; rfl))⟩)
    rw [← points_key, ← points_key, h1, ← h5.points]
    exact Set.subset_union_left
  · rw [expect_two h9, copy_length h7, copy_length h8, h7.1, h8.1, len_key, len_key, len_key] at hv
    rcases key_eq_iff.1 h1 with ⟨rfl, rfl⟩ | ⟨rfl, rfl⟩
    · exact Or.inr (Or.inr ⟨v, elem_iff.2 h2, elem_iff.2 h4, h6, hv⟩)
    · refine Or.inr (Or.inr ⟨v, elem_iff.2 h4, elem_iff.2 h2, h6.symm, hv.trans ?_⟩)
      rw [add_comm]
      rfl

theorem integral_eq {s : State} (h : Ok s) (u : ℕ → ℝ) : integral ident pos s u = ∑ k ∈ keys s, len pos k * u (ident k) := by
  unfold integral keys
  rw [List.sum_toFinset _ h.nodup, List.map_map]
  rfl

/-- C197: the integral over the interface stays. -/
theorem C197_conservation (hi : Function.Injective ident) (h0 : ProperInterface pos s0) (hr : Requests ident pos s0 rs vs)
    (ha : Adapts ident pos s0 rs vs t) (hc : Corners pos corner t.s) (ho : order.Perm (t.s.segs.map Prod.fst)) :
    integral ident pos t.s (adaptData ident corner t order val) = integral ident pos s0 val := by
  have hg := good_adapts (val := val) h0 hr ha
  rw [integral_eq hg.proper.ok, integral_eq h0.ok, ← hg.sum]
  refine Finset.sum_congr rfl fun k hk => ?_
  rw [good_value h0 hi hg hc ho hk]

/-- C197: bounds stay; in particular constants. -/
theorem C197_bounds (hi : Function.Injective ident) (h0 : ProperInterface pos s0) (hr : Requests ident pos s0 rs vs)
    (ha : Adapts ident pos s0 rs vs t) (hc : Corners pos corner t.s) (ho : order.Perm (t.s.segs.map Prod.fst)) (m M : ℝ)
    (hb : ∀ a b, Elem s0 a b → m ≤ val (ident (sortIds [a, b])) ∧ val (ident (sortIds [a, b])) ≤ M) (a b : ℕ) (hab : Elem t.s a b) :
    m ≤ adaptData ident corner t order val (ident (sortIds [a, b])) ∧ adaptData ident corner t order val (ident (sortIds [a, b])) ≤ M := by
  rcases C197_values (val := val) hi h0 hr ha hc ho a b hab with ⟨h1, h2⟩ | ⟨c, d, h1, -, h2⟩ | ⟨v, h1, h2, h3, h4⟩
  · rw [h2]; exact hb a b h1
  · rw [h2]; exact hb c d h1
  · have hg := good_adapts (val := val) h0 hr ha
    have hp := len_pos (hg.proper.apart hab)
    have hs := h3.length
    rw [len_key] at hp
    rw [len_key, len_key, len_key] at hs
    obtain ⟨a1, a2⟩ := hb v a h1
    obtain ⟨b1, b2⟩ := hb v b h2
    have p1 := length_nonneg (pos v) (pos a)
    have p2 := length_nonneg (pos v) (pos b)
    rw [h4, le_div_iff₀ hp, div_le_iff₀ hp, ← hs]
    constructor <;> nlinarith

end

end Verif.InterfaceTransfer
