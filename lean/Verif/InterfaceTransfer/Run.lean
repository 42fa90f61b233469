import Verif.InterfaceTransfer.Props

/-!
# C197: the requests of an adaptation one after the other, and the transfer loop
-/

namespace Verif.InterfaceTransfer

open Verif RefElem InterfaceOps Transfer

variable {ident : List ℕ → ℕ} {pos : ℕ → ℝ × ℝ} {s0 : State} {val : ℕ → ℝ}

/-! ## Insertions -/

/-- Without crossings the requests act on the interface as in `InterfaceOps`. -/
theorem insert_of {t t' : IState ℝ} {r : IReq ℝ} (h : IInsert pos t r t') (hr : ∀ a b c, r.req ≠ .cross a b c) :
    Insert true t.s r.req t'.s := by
  cases h with
  | stale => exact .stale
  | bulk h1 h2 => exact .bulk h1 h2
  | interface h1 h2 h3 _ _ => exact .interface h1 h2 h3
  | cell h1 h2 => exact .cell h1 h2
  | extend h1 h2 h3 => exact .extend h1 h2 h3
  | noEdge h1 h2 => exact .noEdge h1 h2
  | crossStale => exact absurd rfl (hr _ _ _)
  | cross => exact absurd rfl (hr _ _ _)

/-- What is assumed of an insertion request. -/
def InsertOk (ident : List ℕ → ℕ) (pos : ℕ → ℝ × ℝ) (s0 : State) (r : IReq ℝ) : Prop :=
  (∃ a b, r.req = .edge a b true ∧ Elem s0 a b ∧ 0 < r.at' ∧ r.at' < 1 ∧ ∃ g, Copy ident pos (sortIds [a, b]) g ∧ r.comp = [g]) ∨
    (∃ a b, r.req = .edge a b false ∧ ¬ Elem s0 a b ∧ a < s0.next ∧ b < s0.next) ∨ r.req = .cell

theorem good_insert {t t' : IState ℝ} {r : IReq ℝ} (h0 : Ok s0) (hi : IInsert pos t r t') (hr : InsertOk ident pos s0 r)
    (h : Good ident pos s0 val t) (hreq : ReqOk t.s r.req) {P : List ℕ → Prop} (hP : Kept s0 P t)
    (hPr : ∀ a b, r.req = .edge a b true → P (key a b)) :
    Good ident pos s0 val t' ∧ (∀ q, ReqOk t.s q → ReqOk t'.s q) ∧
      Kept s0 (fun k => P k ∧ ∀ a b, r.req = .edge a b true → k ≠ key a b) t' := by
  have hnc : ∀ a b c, r.req ≠ .cross a b c := by
    intro a b c e
    rcases hr with ⟨_, _, h, -⟩ | ⟨_, _, h, -⟩ | h <;> rw [e] at h <;> cases h
  obtain ⟨ok', hq⟩ := ok_insert (insert_of hi hnc) h.proper.ok hreq
  refine ⟨?_, hq, ?_⟩
  · cases hi with
    | stale => exact h
    | @bulk a b v E' w c hv hs => exact good_same h ok' rfl rfl (by simp only; omega) rfl
    | @cell v E' w c hv hs => exact good_same h ok' rfl rfl (by simp only; omega) rfl
    | extend => rcases hr with ⟨_, _, h, -⟩ | ⟨_, _, h, -⟩ | h <;> cases h
    | noEdge => rcases hr with ⟨_, _, h, -⟩ | ⟨_, _, h, -⟩ | h <;> cases h
    | crossStale => exact absurd rfl (hnc _ _ _)
    | cross => exact absurd rfl (hnc _ _ _)
    | @interface a b v E' s' new w c hv hs hi hnew hpos =>
      rcases hr with ⟨a', b', he, hab, w0, w1, g, hg, hcg⟩ | ⟨_, _, h, -⟩ | h
      · cases he
        simp only at w0 w1 hcg
        subst hcg
        have hab0 := elem_iff.1 hab
        obtain ⟨habt, hnone⟩ := hP _ hab0 (hPr a b rfl)
        obtain ⟨s'', h1, h2, h3, h4, h5⟩ := insertInInterface_spec t.s a b v (h.proper.ok.fresh hv)
        rw [h1] at hi
        cases hi
        have hfr : ∀ k, v ∈ k → k ∉ keys t.s := by
          intro k hm hk
          obtain ⟨m, hm'⟩ := mem_keys.1 hk
          exact h.proper.ok.fresh hv _ (Map.mem_of_find hm') hm
        have hcn : ∀ x, Map.find t.comp (key v x) = none := by
          intro x
          by_contra hcc
          exact hfr _ (mem_key.2 (Or.inl rfl)) (h.comp _ hcc)
        refine good_split (v := v) (a := a) (b := b) (g := g) h0 h ok' ?_ ?_ hv hab0 habt hnone ⟨w, w0, w1, hpos⟩ hg ?_ ?_
        · simp only
          have := h.next
          omega
        · intro x hx
          have hxv : x ≠ v := by
            have := h.next
            omega
          simp only
          have := h4 x
          cases ha : s'.flag x <;> cases hb : t.s.flag x <;> simp_all
        · intro k
          simp only [mem_keys, h5]
          by_cases hk : k = key v a ∨ k = key v b
          · simp [hk]
          · by_cases hk' : k = key a b <;> simp [hk, hk']
        · intro k
          simp only
          rcases newSegments_key a b v with e | e <;> rw [e] at hnew <;> cases hnew
          · exact find_mark_two _ _ _ _ (hcn a) (hcn b) k
          · rw [find_mark_two _ _ _ _ (hcn b) (hcn a) k]
            by_cases e1 : k = key v a <;> by_cases e2 : k = key v b <;> simp [e1, e2]
      · cases h
      · cases h
  · intro k hk ⟨hPk, hne⟩
    obtain ⟨k1, k2⟩ := hP k hk hPk
    cases hi with
    | stale => exact ⟨k1, k2⟩
    | bulk => exact ⟨k1, k2⟩
    | cell => exact ⟨k1, k2⟩
    | extend => rcases hr with ⟨_, _, h, -⟩ | ⟨_, _, h, -⟩ | h <;> cases h
    | noEdge => exact ⟨k1, k2⟩
    | crossStale => exact absurd rfl (hnc _ _ _)
    | cross => exact absurd rfl (hnc _ _ _)
    | @interface a b v E' s' new w c hv hs hi hnew hpos =>
      have hkab : k ≠ key a b := hne a b rfl
      have hvk : v ∉ k := by
        intro hm
        obtain ⟨m, hm'⟩ := mem_keys.1 k1
        exact h.proper.ok.fresh hv _ (Map.mem_of_find hm') hm
      have hkv : ∀ x, k ≠ key v x := by
        rintro x rfl
        exact hvk (mem_key.2 (Or.inl rfl))
      obtain ⟨s'', h1, h2, h3, h4, h5⟩ := insertInInterface_spec t.s a b v (h.proper.ok.fresh hv)
      rw [h1] at hi
      cases hi
      refine ⟨?_, ?_⟩
      · obtain ⟨m, hm⟩ := mem_keys.1 k1
        refine mem_keys.2 ⟨m, ?_⟩
        simp only
        rw [h5, if_neg (by rintro (e | e); exacts [hkv _ e, hkv _ e]), if_neg hkab, hm]
      · have : ∀ x y, Map.find (markAsRefined t.comp [key v x, key v y] c) k = Map.find t.comp k := by
          intro x y
          show Map.find (Map.insert (Map.insert _ _ _) _ _) k = _
          rw [Map.find_insert_ne (hkv _), Map.find_insert_ne (hkv _)]
        simp only
        rcases newSegments_key a b v with e | e <;> rw [e] at hnew <;> cases hnew
        · rw [this]; exact k2
        · rw [this]; exact k2

theorem good_inserts (h0 : Ok s0) {rs : List (IReq ℝ)} : ∀ {t t' : IState ℝ} {P : List ℕ → Prop}, IMany (IInsert pos) t rs t' →
    (∀ r ∈ rs, InsertOk ident pos s0 r) → Good ident pos s0 val t → (∀ r ∈ rs, ReqOk t.s r.req) → Kept s0 P t →
    (∀ r ∈ rs, ∀ a b, r.req = .edge a b true → P (key a b)) →
    rs.Pairwise (fun r r' => ∀ a b a' b', r.req = .edge a b true → r'.req = .edge a' b' true → sortIds [a, b] ≠ sortIds [a', b']) →
    Good ident pos s0 val t' ∧ Kept s0 (fun k => P k ∧ ∀ r ∈ rs, ∀ a b, r.req = .edge a b true → k ≠ key a b) t' := by
  induction rs with
  | nil =>
    intro t t' P hm _ hg _ hk _ _
    cases hm
    exact ⟨hg, fun k hk' hP => hk k hk' hP.1⟩
  | cons r rs ih =>
    intro t t' P hm hok hg hreq hk hP hpw
    cases hm with
    | @cons _ t1 _ _ _ h1 h2 =>
      obtain ⟨g1, q1, k1⟩ := good_insert h0 h1 (hok r (by simp)) hg (hreq r (by simp)) hk (hP r (by simp))
      rw [List.pairwise_cons] at hpw
      obtain ⟨g2, k2⟩ := ih h2 (fun r' hr' => hok r' (by simp [hr'])) g1 (fun r' hr' => q1 _ (hreq r' (by simp [hr']))) k1
        (fun r' hr' a b e => ⟨hP r' (by simp [hr']) a b e, fun a' b' e' => (hpw.1 r' hr' a' b' a b e' e).symm⟩) hpw.2
      refine ⟨g2, fun k hk' hPk => k2 k hk' ⟨⟨hPk.1, hPk.2 r (by simp)⟩, fun r' hr' => hPk.2 r' (by simp [hr'])⟩⟩

/-! ## Removals -/

/-- What is assumed of a vertex that is removed. -/
def RemoveOk (pos : ℕ → ℝ × ℝ) (s0 : State) (v : ℕ) : Prop :=
  v < s0.next ∧ (s0.flag v = false ∨ ∃ o o', o ≠ o' ∧ (∀ x, Elem s0 v x ↔ x = o ∨ x = o') ∧ Between pos v o o')

theorem remove_of {t t' : IState ℝ} {v : ℕ} (h : IRemove ident pos t v t') : Remove t.s v t'.s := by
  cases h with
  | bulk h1 h2 => exact .bulk h1 h2
  | keep h1 h2 h3 => exact .keep h1 h2 h3
  | join h1 h2 h3 h4 h5 _ => exact .join h1 h2 h3 h4 h5

theorem good_remove {t t' : IState ℝ} {v : ℕ} (h0 : ProperInterface pos s0) (hi : IRemove ident pos t v t') (hr : RemoveOk pos s0 v)
    (h : Good ident pos s0 val t) {P : List ℕ → Prop} (hP : Kept s0 P t) (hPv : ∀ k ∈ keys s0, v ∈ k → P k) :
    Good ident pos s0 val t' ∧ Kept s0 (fun k => P k ∧ v ∉ k) t' := by
  have ok' := ok_remove (remove_of hi) h.proper.ok
  obtain ⟨hvn, hr⟩ := hr
  have hfl := h.flag v hvn
  rcases hr with hf | ⟨o, o', hne, hel, hb⟩
  · rw [hf] at hfl
    cases hi with
    | bulk h1 h2 => exact ⟨good_same h ok' rfl rfl (le_refl _) rfl, fun k hk hPk => hP k hk hPk.1⟩
    | keep h1 => rw [hfl] at h1; simp at h1
    | join h1 => rw [hfl] at h1; simp at h1
  · have ho0 : key v o ∈ keys s0 := elem_iff.1 ((hel o).2 (Or.inl rfl))
    have ho0' : key v o' ∈ keys s0 := elem_iff.1 ((hel o').2 (Or.inr rfl))
    obtain ⟨ho, hnone⟩ := hP _ ho0 (hPv _ ho0 (mem_key.2 (Or.inl rfl)))
    obtain ⟨ho', hnone'⟩ := hP _ ho0' (hPv _ ho0' (mem_key.2 (Or.inl rfl)))
    have l1 := key_lt h0.ok ho0
    have l2 := key_lt h0.ok ho0'
    -- the elements at `v` are the two old ones
    have hinc : ∀ k ∈ keys t.s, v ∈ k → k = key v o ∨ k = key v o' := by
      intro k hk hvk
      obtain ⟨p, q, hpq, rfl⟩ := key_of_mem h.proper.ok hk
      have : ∃ x, key p q = key v x := by
        rcases mem_key.1 hvk with rfl | rfl
        · exact ⟨q, rfl⟩
        · exact ⟨p, key_comm _ _⟩
      obtain ⟨x, ex⟩ := this
      rw [ex] at hk ⊢
      have old : ∀ {w y : ℕ}, key w y ∈ keys s0 → key w y ∉ keys t.s → w ≠ v ∧ y ≠ v := by
        intro w y h1 h2
        constructor
        · rintro rfl
          exact h2 (hP _ h1 (hPv _ h1 (mem_key.2 (Or.inl rfl)))).1
        · rintro rfl
          exact h2 (hP _ h1 (hPv _ h1 (mem_key.2 (Or.inr rfl)))).1
      rcases h.origin _ hk with ⟨-, h2⟩ | ⟨w, a, b, g, h1, h2, h3, h4, -⟩ | ⟨w, p', q', g, g', h1, h2, h3, h4, h5, -⟩
      · rcases (hel x).1 (elem_iff.2 h2) with rfl | rfl
        · exact Or.inl rfl
        · exact Or.inr rfl
      · have := old h3 h4
        have := key_eq_iff.1 h1
        omega
      · have a1 := old h2 h3
        have a2 := old h4 h5
        have := key_eq_iff.1 h1
        omega
    have hI : ∀ x, Incident t.s v x ↔ x = o ∨ x = o' := by
      intro x
      constructor
      · rintro ⟨h1, -, h3⟩
        have hk : key v x ∈ keys t.s := mem_keys.2 h3
        rcases hinc _ hk (mem_key.2 (Or.inl rfl)) with e | e
        · left; have := key_eq_iff.1 e; omega
        · right; have := key_eq_iff.1 e; omega
      · rintro (rfl | rfl)
        · obtain ⟨m, hm⟩ := mem_keys.1 ho
          exact ⟨l1.1.symm, (h.proper.ok.flags hm).2.2.2, m, hm⟩
        · obtain ⟨m, hm⟩ := mem_keys.1 ho'
          exact ⟨l2.1.symm, (h.proper.ok.flags hm).2.2.2, m, hm⟩
    have hfv : t.s.flag v = true := by
      obtain ⟨m, hm⟩ := mem_keys.1 ho
      exact (h.proper.ok.flags hm).2.1
    cases hi with
    | bulk h1 => rw [hfv] at h1; simp at h1
    | keep h1 h2 h3 =>
      obtain ⟨s1, x, y, e1, -⟩ := C27_join t.s h.proper.ok v o o' _ h2 hne hI
      rw [e1] at h3
      simp at h3
    | @join star s' x y E' c h1 h2 h3 h4 h5 h6 =>
      obtain ⟨f1, f2, f3⟩ := filter_incident h.proper.ok h2
      obtain ⟨c1, c2, -⟩ := collect_spec t.s.segs v _ f1
      rw [f3] at c2
      have hlist := perm_pair ((List.perm_ext_iff_of_nodup f1 (show [o, o'].Nodup by simp [hne])).2 fun z => by rw [f2, hI]; simp)
      -- the order of the two elements
      have key' : ∀ p q, (p = o ∧ q = o' ∨ p = o' ∧ q = o) → (star.filter fun x => isInterfaceBulk t.s [v, x]) = [p, q] →
          Good ident pos s0 val ⟨{ s' with edges := E' }, markAsRefined t.comp [key x y] c⟩ ∧
            Kept s0 (fun k => P k ∧ v ∉ k) ⟨{ s' with edges := E' }, markAsRefined t.comp [key x y] c⟩ := by
        intro p q hpq hl
        unfold removeFromInterface at h3
        simp only [c2] at h3
        rw [hl] at h3 h6 c1
        simp only [Prod.mk.injEq, Option.some.injEq] at h3
        obtain ⟨rfl, rfl, rfl⟩ := h3
        cases h6 with
        | @cons _ g1 _ _ hg1 h6 =>
          cases h6 with
          | @cons _ g2 _ _ hg2 h6 =>
            cases h6
            have hpne : p ≠ q := by rcases hpq with ⟨rfl, rfl⟩ | ⟨rfl, rfl⟩ <;> [exact hne; exact hne.symm]
            have cp : key v p ∈ keys s0 ∧ key v p ∈ keys t.s ∧ Map.find t.comp (key v p) = none := by
              rcases hpq with ⟨rfl, rfl⟩ | ⟨rfl, rfl⟩ <;> [exact ⟨ho0, ho, hnone⟩; exact ⟨ho0', ho', hnone'⟩]
            have cq : key v q ∈ keys s0 ∧ key v q ∈ keys t.s ∧ Map.find t.comp (key v q) = none := by
              rcases hpq with ⟨rfl, rfl⟩ | ⟨rfl, rfl⟩ <;> [exact ⟨ho0', ho', hnone'⟩; exact ⟨ho0, ho, hnone⟩]
            have cb : Between pos v p q := by
              rcases hpq with ⟨rfl, rfl⟩ | ⟨rfl, rfl⟩ <;> [exact hb; exact hb.symm]
            have ci : ∀ k ∈ keys t.s, v ∈ k → k = key v p ∨ k = key v q := by
              intro k hk hvk
              rcases hpq with ⟨rfl, rfl⟩ | ⟨rfl, rfl⟩ <;> [exact hinc k hk hvk; exact (hinc k hk hvk).symm]
            have hmem : ∀ k, (∃ z ∈ [p, q], k = key v z) ↔ k = key v p ∨ k = key v q := by
              intro k; simp
            have hkeys : ∀ k, k ∈ keys ({ t.s with segs := Map.insert (collect t.s.segs v [p, q]).1 (key p q) (collect t.s.segs v [p, q]).2.1, edges := E' }) ↔
                k = key p q ∨ (k ∈ keys t.s ∧ k ≠ key v p ∧ k ≠ key v q) := by
              intro k
              unfold keys
              rw [List.mem_toFinset, List.mem_toFinset, Map.mem_keys_insert, ← Map.find_isSome_iff, c1, ← Map.find_isSome_iff]
              by_cases e : k = key v p ∨ k = key v q
              · rw [if_pos ((hmem k).2 e)]
                simp only [reduceCtorEq, exists_false, false_or]
                tauto
              · rw [if_neg (fun h => e ((hmem k).1 h))]
                tauto
            refine ⟨?_, ?_⟩
            · exact good_join (v := v) (o := p) (o' := q) h0 h ok' h.next (fun _ _ => rfl) hpne cp.1 cp.2.1 cp.2.2 cq.1 cq.2.1 cq.2.2 ci cb hg1 hg2
                hkeys (fun hn k => find_mark_one _ _ _ hn k)
            · intro k hk ⟨hPk, hvk⟩
              obtain ⟨k1, k2⟩ := hP k hk hPk
              refine ⟨(hkeys k).2 (Or.inr ⟨k1, ?_, ?_⟩), ?_⟩
              · rintro rfl; exact hvk (mem_key.2 (Or.inl rfl))
              · rintro rfl; exact hvk (mem_key.2 (Or.inl rfl))
              · show Map.find (Map.insert _ _ _) k = _
                rw [Map.find_insert_ne, k2]
                rintro rfl
                exact h0.free v p q (onInterface_left (elem_iff.2 ho0)) (elem_iff.2 hk) cb
      rcases hlist with hl | hl
      · exact key' o o' (Or.inl ⟨rfl, rfl⟩) hl
      · exact key' o' o (Or.inr ⟨rfl, rfl⟩) hl

theorem good_removes (h0 : ProperInterface pos s0) {vs : List ℕ} : ∀ {t t' : IState ℝ} {P : List ℕ → Prop}, IMany (IRemove ident pos) t vs t' →
    (∀ v ∈ vs, RemoveOk pos s0 v) → Good ident pos s0 val t → Kept s0 P t → (∀ v ∈ vs, ∀ k ∈ keys s0, v ∈ k → P k) →
    vs.Pairwise (fun v w => v ≠ w ∧ ¬ Elem s0 v w) → Good ident pos s0 val t' := by
  induction vs with
  | nil =>
    intro t t' P hm _ hg _ _ _
    cases hm
    exact hg
  | cons v vs ih =>
    intro t t' P hm hok hg hk hP hpw
    cases hm with
    | @cons _ t1 _ _ _ h1 h2 =>
      obtain ⟨g1, k1⟩ := good_remove h0 h1 (hok v (by simp)) hg hk (hP v (by simp))
      rw [List.pairwise_cons] at hpw
      refine ih h2 (fun w hw => hok w (by simp [hw])) g1 k1 (fun w hw k hk' hwk => ⟨hP w (by simp [hw]) k hk' hwk, fun hvk => ?_⟩) hpw.2
      obtain ⟨h3, h4⟩ := hpw.1 w hw
      apply h4
      obtain ⟨p, q, hpq, rfl⟩ := key_of_mem h0.ok hk'
      rw [elem_iff]
      rcases mem_key.1 hvk with rfl | rfl <;> rcases mem_key.1 hwk with rfl | rfl
      · exact absurd rfl h3
      · exact hk'
      · rw [key_comm]; exact hk'
      · exact absurd rfl h3

/-! ## The whole adaptation -/

theorem good_init (h0 : ProperInterface pos s0) : Good ident pos s0 val ⟨s0, []⟩ := by
  refine ⟨h0, le_refl _, fun _ _ => rfl, fun k hk => Or.inl ⟨rfl, hk⟩, fun k hk => absurd rfl hk, ?_, fun _ => Iff.rfl⟩
  refine Finset.sum_congr rfl fun k _ => ?_
  rw [expect_none rfl]

theorem good_adapts {rs : List (IReq ℝ)} {vs : List ℕ} {t : IState ℝ} (h0 : ProperInterface pos s0) (hr : Requests ident pos s0 rs vs)
    (ha : Adapts ident pos s0 rs vs t) : Good ident pos s0 val t := by
  obtain ⟨mid, h1, h2⟩ := ha
  have hreq : ∀ r ∈ rs, ReqOk s0 r.req := by
    intro r hrm
    rcases hr.insert r hrm with ⟨a, b, e, hab, -⟩ | ⟨a, b, e, hab, ha, hb⟩ | e
    · rw [e]
      obtain ⟨m, hm⟩ := mem_keys.1 (elem_iff.1 hab)
      have := h0.ok.flags hm
      have := key_lt h0.ok (elem_iff.1 hab)
      simp only [ReqOk]
      tauto
    · rw [e]
      refine ⟨?_, ha, hb⟩
      by_contra hne
      obtain ⟨m, hm⟩ := Option.ne_none_iff_exists'.1 hne
      exact hab (elem_iff.2 (mem_keys.2 ⟨m, hm⟩))
    · rw [e]; trivial
  obtain ⟨g1, k1⟩ := good_inserts (P := fun _ => True) h0.ok h1 hr.insert (good_init h0) hreq (fun k hk _ => ⟨hk, rfl⟩)
    (fun _ _ _ _ _ => trivial) hr.once
  refine good_removes h0 h2 hr.remove g1 k1 (fun v hv k hk hvk => ⟨trivial, fun r hrm a b e => ?_⟩) hr.apart'
  obtain ⟨h3, h4⟩ := hr.apart v hv r hrm a b e
  rintro rfl
  rcases mem_key.1 hvk with e | e
  · exact h3 e
  · exact h4 e

end Verif.InterfaceTransfer
