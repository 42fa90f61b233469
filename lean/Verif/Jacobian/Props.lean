import Verif.Jacobian.Model
import Mathlib.Algebra.BigOperators.Group.List.Basic
import Mathlib.Algebra.BigOperators.Ring.List
import Mathlib.Algebra.BigOperators.Group.Finset.Sigma
import Mathlib.Algebra.BigOperators.Group.Finset.Piecewise
import Mathlib.Algebra.BigOperators.Intervals
import Mathlib.Algebra.Order.Ring.Rat
import Mathlib.Data.List.Nodup
import Mathlib.Tactic.Ring
import Mathlib.Tactic.FieldSimp
import Mathlib.Tactic.Linarith

/-!
# C76-C79: the coupled Jacobian
-/

namespace Verif.Jacobian

set_option linter.unusedSectionVars false

variable {K S : Type*} [Field K] [LinearOrder K]

/-! ## Loops in closed form -/

theorem addLocalDofs_list (l : List (ℕ × ℕ)) (v w : ℕ → K) (r : ℕ) :
    l.foldl (fun w p => Function.update w p.1 (w p.1 + v p.2)) w r
      = w r + (l.map fun p => if p.1 = r then v p.2 else 0).sum := by
  induction l generalizing w with
  | nil => simp
  | cons p l ih =>
    rw [List.foldl_cons, ih, List.map_cons, List.sum_cons]
    by_cases h : p.1 = r
    · subst h; simp [add_assoc]
    · rw [Function.update_of_ne (Ne.symm h)]; simp [h]

theorem addLocalDofs_apply (dofs : List ℕ) (v w : ℕ → K) (r : ℕ) :
    addLocalDofs dofs v w r = w r + (dofs.zipIdx.map fun p => if p.1 = r then v p.2 else 0).sum :=
  addLocalDofs_list _ _ _ _

theorem addRow_list (l : List (ℕ × ℕ)) (M B : ℕ → ℕ → K) (p : ℕ × ℕ) (r c : ℕ) :
    l.foldl (fun (B : ℕ → ℕ → K) q => Function.update B p.1 (Function.update (B p.1) q.1 (B p.1 q.1 + M p.2 q.2))) B r c
      = B r c + (l.map fun q => if p.1 = r ∧ q.1 = c then M p.2 q.2 else 0).sum := by
  induction l generalizing B with
  | nil => simp
  | cons q l ih =>
    rw [List.foldl_cons, ih, List.map_cons, List.sum_cons]
    by_cases h : p.1 = r
    · subst h
      by_cases h' : q.1 = c
      · subst h'; simp [add_assoc]
      · rw [Function.update_self, Function.update_of_ne (Ne.symm h')]; simp [h']
    · rw [Function.update_of_ne (Ne.symm h)]; simp [h]

theorem addLocalMatrix_apply (rows cols : List ℕ) (M B : ℕ → ℕ → K) (r c : ℕ) :
    addLocalMatrix rows cols M B r c = B r c + (rows.zipIdx.map fun p => if p.1 = r then
      (cols.zipIdx.map fun q => if q.1 = c then M p.2 q.2 else 0).sum else 0).sum := by
  unfold addLocalMatrix
  generalize rows.zipIdx = l
  induction l generalizing B with
  | nil => simp
  | cons p l ih =>
    rw [List.foldl_cons, ih, List.map_cons, List.sum_cons, addRow, addRow_list, add_assoc]
    congr 2
    by_cases h : p.1 = r
    · simp [h]
    · simp [h]

/-- The pairs of a list without repetitions and its positions are determined by either component. -/
theorem zipIdx_inj {l : List ℕ} (h : l.Nodup) {p q : ℕ × ℕ} (hp : p ∈ l.zipIdx) (hq : q ∈ l.zipIdx) :
    p.1 = q.1 ↔ p.2 = q.2 := by
  obtain ⟨a, i⟩ := p
  obtain ⟨b, j⟩ := q
  rw [List.mk_mem_zipIdx_iff_getElem?] at hp hq
  simp only
  constructor
  · rintro rfl
    obtain ⟨hi, e1⟩ := List.getElem?_eq_some_iff.1 hp
    obtain ⟨hj, e2⟩ := List.getElem?_eq_some_iff.1 hq
    exact (List.Nodup.getElem_inj_iff h).1 (e1.trans e2.symm)
  · rintro rfl
    rw [hp] at hq
    exact Option.some.inj hq

theorem zipIdx_nodup (l : List ℕ) (n : ℕ) : (l.zipIdx n).Nodup := by
  refine List.Nodup.of_map Prod.snd ?_
  rw [List.zipIdx_map_snd]
  exact List.nodup_range'

theorem sum_single {α : Type*} (l : List α) (h : l.Nodup) (f : α → K) (a : α) (ha : a ∈ l)
    (hf : ∀ b ∈ l, b ≠ a → f b = 0) : (l.map f).sum = f a := by
  induction l with
  | nil => cases ha
  | cons x l ih =>
    rw [List.map_cons, List.sum_cons]
    rw [List.nodup_cons] at h
    rcases List.mem_cons.1 ha with rfl | ha'
    · have : l.map f = l.map fun _ => 0 := List.map_congr_left fun b hb =>
        hf b (List.mem_cons_of_mem _ hb) (fun e => h.1 (e ▸ hb))
      rw [this]; simp
    · rw [ih h.2 ha' fun b hb hne => hf b (List.mem_cons_of_mem _ hb) hne,
        hf x (List.mem_cons_self ..) (fun e => h.1 (e ▸ ha')), zero_add]

theorem addLocalDofs_at (dofs : List ℕ) (h : dofs.Nodup) (v w : ℕ → K) (p : ℕ × ℕ) (hp : p ∈ dofs.zipIdx) :
    addLocalDofs dofs v w p.1 = w p.1 + v p.2 := by
  rw [addLocalDofs_apply, sum_single _ (zipIdx_nodup _ _) _ p hp]
  · simp
  · intro b hb hne
    refine if_neg fun e => hne ?_
    exact Prod.ext e ((zipIdx_inj h hb hp).1 e)

theorem difference_at (dofs : List ℕ) (hd : dofs.Nodup) (Fm Fp : ℕ → K) (h : K) (p : ℕ × ℕ) (hp : p ∈ dofs.zipIdx) :
    difference dofs Fm Fp h p.1 = (Fp p.2 - Fm p.2) / (2 * h) := by
  unfold difference
  rw [addLocalDofs_at _ hd _ _ _ hp, addLocalDofs_at _ hd _ _ _ hp]
  congr 1
  ring

theorem setColumn_list (l : List (ℕ × ℕ)) (i : ℕ) (d : ℕ → K) (M : ℕ → ℕ → K) (p : ℕ × ℕ) (hp : p ∈ l)
    (hl : ∀ a ∈ l, ∀ b ∈ l, a.2 = b.2 → a.1 = b.1) (i' : ℕ) :
    l.foldl (fun M p => Function.update M p.2 (Function.update (M p.2) i (d p.1))) M p.2 i'
      = if i' = i then d p.1 else M p.2 i' := by
  have aux : ∀ (l : List (ℕ × ℕ)) (M : ℕ → ℕ → K), (∀ a ∈ l, a.2 = p.2 → a.1 = p.1) →
      (M p.2 i' = if i' = i then d p.1 else M p.2 i') →
      l.foldl (fun M p => Function.update M p.2 (Function.update (M p.2) i (d p.1))) M p.2 i' = M p.2 i' := by
    intro l
    induction l with
    | nil => intros; rfl
    | cons a l ih =>
      intro M h1 h2
      rw [List.foldl_cons]
      have hM : Function.update M a.2 (Function.update (M a.2) i (d a.1)) p.2 i' = M p.2 i' := by
        by_cases ha : a.2 = p.2
        · rw [ha, Function.update_self]
          by_cases hi : i' = i
          · subst hi
            rw [Function.update_self, h1 a (List.mem_cons_self ..) ha, h2, if_pos rfl]
          · rw [Function.update_of_ne hi]
        · rw [Function.update_of_ne (Ne.symm ha)]
      rw [ih _ (fun b hb => h1 b (List.mem_cons_of_mem _ hb)) ?_, hM]
      rw [hM]; exact h2
  induction l generalizing M with
  | nil => cases hp
  | cons a l ih =>
    rw [List.foldl_cons]
    by_cases hpl : p ∈ l
    · rw [ih _ hpl fun x hx y hy => hl x (List.mem_cons_of_mem _ hx) y (List.mem_cons_of_mem _ hy)]
      by_cases hi : i' = i
      · simp [hi]
      · rw [if_neg hi, if_neg hi]
        by_cases ha : a.2 = p.2
        · rw [ha, Function.update_self, Function.update_of_ne hi]
        · rw [Function.update_of_ne (Ne.symm ha)]
    · have ha : p = a := (List.mem_cons.1 hp).resolve_right hpl
      subst ha
      have hM : Function.update M p.2 (Function.update (M p.2) i (d p.1)) p.2 i' = if i' = i then d p.1 else M p.2 i' := by
        rw [Function.update_self]
        by_cases hi : i' = i
        · subst hi; simp
        · rw [Function.update_of_ne hi, if_neg hi]
      rw [aux l _ (fun b hb e => hl b (List.mem_cons_of_mem _ hb) p (List.mem_cons_self ..) e), hM]
      rw [hM]
      split <;> rfl

theorem setColumn_at (dofs : List ℕ) (hd : dofs.Nodup) (i : ℕ) (d : ℕ → K) (M : ℕ → ℕ → K) (p : ℕ × ℕ)
    (hp : p ∈ dofs.zipIdx) (i' : ℕ) : setColumn dofs i d M p.2 i' = if i' = i then d p.1 else M p.2 i' :=
  setColumn_list _ i d M p hp (fun _ ha _ hb e => (zipIdx_inj hd ha hb).2 e) i'

/-- The step of the difference quotient for a dof with value `x`. -/
def stepSize (eps x : K) : K := max (x * eps) eps

/-- The vector `x` with `s` added to dof `k`. -/
def moved (x : ℕ → K) (k : ℕ) (s : K) : ℕ → K := fun i => if i = k then x i + s else x i

theorem update_moved (x : ℕ → K) (k : ℕ) (s : K) : Function.update x k (x k + s) = moved x k s := by
  funext i
  unfold moved
  by_cases h : i = k
  · subst h; simp
  · simp [h]

theorem moved_zero (x : ℕ → K) (k : ℕ) : moved x k 0 = x := by
  funext i; simp [moved]

theorem moved_moved (x : ℕ → K) (k : ℕ) (a b : K) : moved (moved x k a) k b = moved x k (a + b) := by
  funext i
  unfold moved
  by_cases h : i = k <;> simp [h, add_assoc]

theorem diffDof_eq {R : Type*} (eps : K) (run : (ℕ → K) → S × R) (x : ℕ → K) (k : ℕ) :
    diffDof eps run x k = (x, (run (moved x k (stepSize eps (x k)))).1, (run (moved x k (-stepSize eps (x k)))).2,
      (run (moved x k (stepSize eps (x k)))).2, stepSize eps (x k)) := by
  unfold diffDof
  simp only [sub_eq_add_neg, update_moved, moved_moved]
  rw [show max (x k * eps) eps = stepSize eps (x k) from rfl]
  have e1 : -stepSize eps (x k) + stepSize eps (x k) + stepSize eps (x k) = stepSize eps (x k) := by ring
  have e2 : stepSize eps (x k) + -stepSize eps (x k) = 0 := by ring
  rw [e1, e2, moved_zero]

/-! ## Assembly of B -/

/-- The difference quotient of the skeleton integral on `e` with respect to dof `k`: inside and outside. -/
def quotientB (P : Problem K S) (t u : ℕ → K) (e k j : ℕ) (out : Bool) : K :=
  let tp := moved t k (stepSize P.eps (t k))
  let tm := moved t k (-stepSize P.eps (t k))
  let F := fun t : ℕ → K => if out then (P.skel e (P.cb t u) t u).2 j else (P.skel e (P.cb t u) t u).1 j
  (F tp - F tm) / (2 * stepSize P.eps (t k))

theorem dofB_fold (P : Problem K S) (u : ℕ → K) (e a b : ℕ) (ha : (P.udofs a).Nodup) (hb : (P.udofs b).Nodup) (t : ℕ → K)
    (l : List (ℕ × ℕ)) (hl : ∀ q ∈ l, ∀ q' ∈ l, q.2 = q'.2 → q.1 = q'.1) (d : S) (M N : ℕ → ℕ → K) :
    ∃ d' M' N', l.foldl (dofB P u e a b) (t, d, M, N) = (t, d', M', N') ∧
      (∀ p ∈ (P.udofs a).zipIdx, ∀ q ∈ l, M' p.2 q.2 = quotientB P t u e q.1 p.2 false) ∧
      (∀ p ∈ (P.udofs a).zipIdx, ∀ i, i ∉ l.map Prod.snd → M' p.2 i = M p.2 i) ∧
      (∀ p ∈ (P.udofs b).zipIdx, ∀ q ∈ l, N' p.2 q.2 = quotientB P t u e q.1 p.2 true) ∧
      (∀ p ∈ (P.udofs b).zipIdx, ∀ i, i ∉ l.map Prod.snd → N' p.2 i = N p.2 i) := by
  induction l generalizing d M N with
  | nil => exact ⟨d, M, N, rfl, by simp, by simp, by simp, by simp⟩
  | cons q l ih =>
    rw [List.foldl_cons]
    have hq : dofB P u e a b (t, d, M, N) q = (t, (runB P u e (moved t q.1 (stepSize P.eps (t q.1)))).1,
        setColumn (P.udofs a) q.2 (difference (P.udofs a) (runB P u e (moved t q.1 (-stepSize P.eps (t q.1)))).2.1
          (runB P u e (moved t q.1 (stepSize P.eps (t q.1)))).2.1 (stepSize P.eps (t q.1))) M,
        setColumn (P.udofs b) q.2 (difference (P.udofs b) (runB P u e (moved t q.1 (-stepSize P.eps (t q.1)))).2.2
          (runB P u e (moved t q.1 (stepSize P.eps (t q.1)))).2.2 (stepSize P.eps (t q.1))) N) := by
      unfold dofB
      simp only [diffDof_eq]
    rw [hq]
    obtain ⟨d', M', N', h1, h2, h3, h4, h5⟩ := ih (fun x hx y hy => hl x (List.mem_cons_of_mem _ hx) y
      (List.mem_cons_of_mem _ hy)) _ _ _
    refine ⟨d', M', N', h1, ?_, ?_, ?_, ?_⟩
    · intro p hp x hx
      by_cases hxl : x.2 ∈ l.map Prod.snd
      · obtain ⟨y, hy, hyx⟩ := List.mem_map.1 hxl
        rw [← hyx, h2 p hp y hy, hl y (List.mem_cons_of_mem _ hy) x hx hyx]
      · have hxq : x = q := by
          rcases List.mem_cons.1 hx with h | h
          · exact h
          · exact absurd (List.mem_map_of_mem (f := Prod.snd) h) hxl
        subst hxq
        rw [h3 p hp _ hxl, setColumn_at _ ha _ _ _ _ hp, if_pos rfl, difference_at _ ha _ _ _ _ hp]
        simp [quotientB, runB]
    · intro p hp i hi
      rw [List.map_cons, List.mem_cons, not_or] at hi
      rw [h3 p hp i hi.2, setColumn_at _ ha _ _ _ _ hp, if_neg hi.1]
    · intro p hp x hx
      by_cases hxl : x.2 ∈ l.map Prod.snd
      · obtain ⟨y, hy, hyx⟩ := List.mem_map.1 hxl
        rw [← hyx, h4 p hp y hy, hl y (List.mem_cons_of_mem _ hy) x hx hyx]
      · have hxq : x = q := by
          rcases List.mem_cons.1 hx with h | h
          · exact h
          · exact absurd (List.mem_map_of_mem (f := Prod.snd) h) hxl
        subst hxq
        rw [h5 p hp _ hxl, setColumn_at _ hb _ _ _ _ hp, if_pos rfl, difference_at _ hb _ _ _ _ hp]
        simp [quotientB, runB]
    · intro p hp i hi
      rw [List.map_cons, List.mem_cons, not_or] at hi
      rw [h5 p hp i hi.2, setColumn_at _ hb _ _ _ _ hp, if_neg hi.1]

theorem sum_dof (l : List ℕ) (h : l.Nodup) (c : ℕ) (f : ℕ × ℕ → K) (a : K) (hf : ∀ q ∈ l.zipIdx, q.1 = c → f q = a) :
    (l.zipIdx.map fun q => if q.1 = c then f q else 0).sum = if c ∈ l then a else 0 := by
  by_cases hc : c ∈ l
  · obtain ⟨i, hi⟩ := List.mem_iff_getElem?.1 hc
    have hm : (c, i) ∈ l.zipIdx := List.mk_mem_zipIdx_iff_getElem?.2 hi
    rw [sum_single _ (zipIdx_nodup _ _) _ (c, i) hm, if_pos rfl, if_pos hc, hf _ hm rfl]
    intro b hb hne
    refine if_neg fun e => hne ?_
    exact Prod.ext e ((zipIdx_inj h hb hm).1 e)
  · rw [if_neg hc]
    have : (l.zipIdx.map fun q => if q.1 = c then f q else 0) = l.zipIdx.map fun _ => 0 := by
      refine List.map_congr_left fun q hq => if_neg fun e => hc ?_
      have := List.mem_map_of_mem (f := Prod.fst) hq
      rw [List.zipIdx_map_fst] at this
      exact e ▸ this
    rw [this]; simp

/-- What interface element `e` adds to entry `(r, c)` of `B`. -/
def partB (P : Problem K S) (t u : ℕ → K) (e b r c : ℕ) : K :=
  ((P.udofs (P.inside e)).zipIdx.map fun p => if p.1 = r then (if c ∈ P.tdofs e then quotientB P t u e c p.2 false else 0) else 0).sum
  + ((P.udofs b).zipIdx.map fun p => if p.1 = r then (if c ∈ P.tdofs e then quotientB P t u e c p.2 true else 0) else 0).sum

theorem elementB_eq (P : Problem K S) (u : ℕ → K) (st : StB K S) (e b : ℕ) (hb : P.outside e = some b)
    (ht : (P.tdofs e).Nodup) (hu : ∀ x, (P.udofs x).Nodup) :
    ∃ st', elementB P u st e = some st' ∧ st'.t = st.t ∧ ∀ r c, st'.B r c = st.B r c + partB P st.t u e b r c := by
  obtain ⟨d', M', N', h1, h2, -, h4, -⟩ := dofB_fold P u e (P.inside e) b (hu _) (hu _) st.t (P.tdofs e).zipIdx
    (fun x hx y hy hxy => (zipIdx_inj ht hx hy).2 hxy) st.data (fun _ _ => 0) (fun _ _ => 0)
  unfold elementB
  rw [hb]
  simp only [Option.map_some, h1]
  refine ⟨_, rfl, rfl, fun r c => ?_⟩
  simp only
  rw [addLocalMatrix_apply, addLocalMatrix_apply, add_assoc]
  congr 1
  unfold partB
  congr 1
  · congr 1
    refine List.map_congr_left fun p hp => ?_
    congr 1
    exact sum_dof _ ht c _ _ fun q hq e' => by rw [h2 p hp q hq, e']
  · congr 1
    refine List.map_congr_left fun p hp => ?_
    congr 1
    exact sum_dof _ ht c _ _ fun q hq e' => by rw [h4 p hp q hq, e']

theorem assembleB_fold (P : Problem K S) (u : ℕ → K) (out : ℕ → ℕ) (es : List ℕ) (ho : ∀ e ∈ es, P.outside e = some (out e))
    (ht : ∀ e, (P.tdofs e).Nodup) (hu : ∀ x, (P.udofs x).Nodup) (st : StB K S) :
    ∃ st', es.foldlM (elementB P u) st = some st' ∧ st'.t = st.t ∧
      ∀ r c, st'.B r c = st.B r c + (es.map fun e => partB P st.t u e (out e) r c).sum := by
  induction es generalizing st with
  | nil => exact ⟨st, rfl, rfl, by simp⟩
  | cons e es ih =>
    obtain ⟨s1, h1, h2, h3⟩ := elementB_eq P u st e (out e) (ho e (List.mem_cons_self ..)) (ht e) hu
    obtain ⟨s2, g1, g2, g3⟩ := ih (fun x hx => ho x (List.mem_cons_of_mem _ hx)) s1
    refine ⟨s2, ?_, g2.trans h2, fun r c => ?_⟩
    · rw [List.foldlM_cons, h1]
      exact g1
    · rw [g3, h3, List.map_cons, List.sum_cons, h2, add_assoc]

/-! ## Specification -/

/-- The skeleton part of the residual of the bulk scheme: the sum of the local contributions of all interface elements,
row `r`, for the interface function `t`. The callback is called for `t`. -/
def residualB (P : Problem K S) (out : ℕ → ℕ) (es : List ℕ) (u : ℕ → K) (r : ℕ) (t : ℕ → K) : K :=
  (es.map fun e =>
    ((P.udofs (P.inside e)).zipIdx.map fun p => if p.1 = r then (P.skel e (P.cb t u) t u).1 p.2 else 0).sum +
    ((P.udofs (out e)).zipIdx.map fun p => if p.1 = r then (P.skel e (P.cb t u) t u).2 p.2 else 0).sum).sum

/-- The residual of the interface scheme: the sum over the interface elements, row `r`, for the bulk function `u`. -/
def residualC (P : Problem K S) (es : List ℕ) (t : ℕ → K) (r : ℕ) (u : ℕ → K) : K :=
  (es.map fun e => ((P.tdofs e).zipIdx.map fun p => if p.1 = r then P.interior e (P.cb t u) t u p.2 else 0).sum).sum

/-- The central difference quotient of `F` with respect to dof `c` with step `h`. -/
def centralDiff (F : (ℕ → K) → K) (x : ℕ → K) (c : ℕ) (h : K) : K := (F (moved x c h) - F (moved x c (-h))) / (2 * h)

/-- What is assumed of the spaces: the dofs of an element are distinct. -/
structure Spaces (P : Problem K S) : Prop where
  t : ∀ e, (P.tdofs e).Nodup
  u : ∀ b, (P.udofs b).Nodup

/-- The integrals are local: the skeleton integral on `e` (with the callback) only depends on the interface function on
`e`, the integral of the interface scheme only on the bulk function on the two adjacent elements. -/
structure Local (P : Problem K S) : Prop where
  skel : ∀ e t t' u, (∀ k ∈ P.tdofs e, t k = t' k) → P.skel e (P.cb t u) t u = P.skel e (P.cb t' u) t' u
  interior : ∀ e t u u', (∀ k ∈ P.udofs (P.inside e), u k = u' k) → (∀ b, P.outside e = some b → ∀ k ∈ P.udofs b, u k = u' k) →
    P.interior e (P.cb t u) t u = P.interior e (P.cb t u') t u'

theorem sum_sub_div {α : Type*} (l : List α) (f g : α → K) (d : K) :
    (l.map fun a => (f a - g a) / d).sum = ((l.map f).sum - (l.map g).sum) / d := by
  induction l with
  | nil => simp
  | cons a l ih => simp only [List.map_cons, List.sum_cons, ih]; ring

theorem partB_eq (P : Problem K S) (hl : Local P) (t u : ℕ → K) (e b r c : ℕ) :
    partB P t u e b r c = centralDiff (fun t =>
      ((P.udofs (P.inside e)).zipIdx.map fun p => if p.1 = r then (P.skel e (P.cb t u) t u).1 p.2 else 0).sum +
      ((P.udofs b).zipIdx.map fun p => if p.1 = r then (P.skel e (P.cb t u) t u).2 p.2 else 0).sum)
      t c (stepSize P.eps (t c)) := by
  have key : ∀ (l : List ℕ) (o : Bool), (l.zipIdx.map fun p => if p.1 = r then
      (if c ∈ P.tdofs e then quotientB P t u e c p.2 o else 0) else 0)
      = l.zipIdx.map fun p => ((if p.1 = r then (if o then (P.skel e (P.cb (moved t c (stepSize P.eps (t c))) u)
          (moved t c (stepSize P.eps (t c))) u).2 p.2 else (P.skel e (P.cb (moved t c (stepSize P.eps (t c))) u)
          (moved t c (stepSize P.eps (t c))) u).1 p.2) else 0) - (if p.1 = r then
          (if o then (P.skel e (P.cb (moved t c (-stepSize P.eps (t c))) u)
          (moved t c (-stepSize P.eps (t c))) u).2 p.2 else (P.skel e (P.cb (moved t c (-stepSize P.eps (t c))) u)
          (moved t c (-stepSize P.eps (t c))) u).1 p.2) else 0)) / (2 * stepSize P.eps (t c)) := by
    intro l o
    refine List.map_congr_left fun p _ => ?_
    by_cases hr : p.1 = r
    · simp only [if_pos hr]
      by_cases hc : c ∈ P.tdofs e
      · simp only [if_pos hc, quotientB]
      · rw [if_neg hc]
        have : P.skel e (P.cb (moved t c (stepSize P.eps (t c))) u) (moved t c (stepSize P.eps (t c))) u
            = P.skel e (P.cb (moved t c (-stepSize P.eps (t c))) u) (moved t c (-stepSize P.eps (t c))) u := by
          refine hl.skel e _ _ u fun k hk => ?_
          have : k ≠ c := fun h => hc (h ▸ hk)
          simp [moved, this]
        rw [this]
        simp
    · simp [hr]
  unfold partB centralDiff
  rw [key _ false, key _ true, sum_sub_div, sum_sub_div]
  simp only [Bool.false_eq_true, if_false, if_true]
  ring

/-! ## C76 -/

/-- **C76** If no interface element lies on the domain boundary, entry `(r, c)` of the block `B` is the central difference
quotient of row `r` of the residual of the bulk scheme with respect to dof `c` of the interface function. The interface
function has its old values afterwards. -/
theorem C76_assembleB (P : Problem K S) (hs : Spaces P) (hl : Local P) (es : List ℕ) (out : ℕ → ℕ)
    (ho : ∀ e ∈ es, P.outside e = some (out e)) (t u : ℕ → K) (data : S) :
    ∃ st, assembleB P es t u data = some st ∧ st.t = t ∧
      ∀ r c, st.B r c = centralDiff (residualB P out es u r) t c (max (t c * P.eps) P.eps) := by
  obtain ⟨st, h1, h2, h3⟩ := assembleB_fold P u out es ho hs.t hs.u ⟨t, data, fun _ _ => 0⟩
  refine ⟨st, h1, h2, fun r c => ?_⟩
  rw [h3, zero_add]
  unfold residualB centralDiff
  rw [← sum_sub_div]
  congr 1
  refine List.map_congr_left fun e _ => ?_
  rw [partB_eq P hl]
  rfl

/-- **C76** Hence the block is exact for residuals that are quadratic in each dof of the interface function, in
particular for linear ones: the entry is the coefficient of the linear term. -/
theorem C76_exact [IsStrictOrderedRing K] (P : Problem K S) (hs : Spaces P) (hl : Local P) (es : List ℕ) (out : ℕ → ℕ)
    (ho : ∀ e ∈ es, P.outside e = some (out e)) (heps : 0 < P.eps) (t u : ℕ → K) (data : S) (r c : ℕ) (v d q : K)
    (hq : ∀ s, residualB P out es u r (moved t c s) = v + d * s + q * s ^ 2) :
    ∃ st, assembleB P es t u data = some st ∧ st.B r c = d := by
  obtain ⟨st, h1, -, h3⟩ := C76_assembleB P hs hl es out ho t u data
  refine ⟨st, h1, ?_⟩
  rw [h3, centralDiff, hq, hq]
  have hpos : 0 < max (t c * P.eps) P.eps := lt_of_lt_of_le heps (le_max_right _ _)
  have hne := ne_of_gt hpos
  field_simp
  ring

/-- **C130** is false for interfaces that reach the domain boundary with an interface element on it: `outside()` is called
although there is no outside element. -/
theorem C130_boundary_false (P : Problem K S) (es : List ℕ) (e : ℕ) (he : e ∈ es) (hb : P.outside e = none) (t u : ℕ → K)
    (data : S) : assembleB P es t u data = none := by
  unfold assembleB
  generalize (⟨t, data, fun _ _ => 0⟩ : StB K S) = st
  induction es generalizing st with
  | nil => cases he
  | cons x es ih =>
    rw [List.foldlM_cons]
    by_cases hx : x = e
    · subst hx
      have : elementB P u st x = none := by simp [elementB, hb]
      rw [this]; rfl
    · cases elementB P u st x with
      | none => rfl
      | some st' => exact ih ((List.mem_cons.1 he).resolve_left (Ne.symm hx)) st'

/-! ## Assembly of C -/

/-- The difference quotient of the integral on `e` with respect to dof `k` of the bulk function. -/
def quotientC (P : Problem K S) (t u : ℕ → K) (e k j : ℕ) : K :=
  (P.interior e (P.cb t (moved u k (stepSize P.eps (u k)))) t (moved u k (stepSize P.eps (u k))) j
    - P.interior e (P.cb t (moved u k (-stepSize P.eps (u k)))) t (moved u k (-stepSize P.eps (u k))) j)
    / (2 * stepSize P.eps (u k))

theorem dofC_fold (P : Problem K S) (t : ℕ → K) (e : ℕ) (he : (P.tdofs e).Nodup) (u : ℕ → K)
    (l : List (ℕ × ℕ)) (hl : ∀ q ∈ l, ∀ q' ∈ l, q.2 = q'.2 → q.1 = q'.1) (d : S) (M : ℕ → ℕ → K) :
    ∃ d' M', l.foldl (dofC P t e) (u, d, M) = (u, d', M') ∧
      (∀ p ∈ (P.tdofs e).zipIdx, ∀ q ∈ l, M' p.2 q.2 = quotientC P t u e q.1 p.2) ∧
      (∀ p ∈ (P.tdofs e).zipIdx, ∀ i, i ∉ l.map Prod.snd → M' p.2 i = M p.2 i) := by
  induction l generalizing d M with
  | nil => exact ⟨d, M, rfl, by simp, by simp⟩
  | cons q l ih =>
    rw [List.foldl_cons]
    have hq : dofC P t e (u, d, M) q = (u, (runC P t e (moved u q.1 (stepSize P.eps (u q.1)))).1,
        setColumn (P.tdofs e) q.2 (difference (P.tdofs e) (runC P t e (moved u q.1 (-stepSize P.eps (u q.1)))).2
          (runC P t e (moved u q.1 (stepSize P.eps (u q.1)))).2 (stepSize P.eps (u q.1))) M) := by
      unfold dofC
      simp only [diffDof_eq]
    rw [hq]
    obtain ⟨d', M', h1, h2, h3⟩ := ih (fun x hx y hy => hl x (List.mem_cons_of_mem _ hx) y
      (List.mem_cons_of_mem _ hy)) _ _
    refine ⟨d', M', h1, ?_, ?_⟩
    · intro p hp x hx
      by_cases hxl : x.2 ∈ l.map Prod.snd
      · obtain ⟨y, hy, hyx⟩ := List.mem_map.1 hxl
        rw [← hyx, h2 p hp y hy, hl y (List.mem_cons_of_mem _ hy) x hx hyx]
      · have hxq : x = q := by
          rcases List.mem_cons.1 hx with h | h
          · exact h
          · exact absurd (List.mem_map_of_mem (f := Prod.snd) h) hxl
        subst hxq
        rw [h3 p hp _ hxl, setColumn_at _ he _ _ _ _ hp, if_pos rfl, difference_at _ he _ _ _ _ hp]
        simp [quotientC, runC]
    · intro p hp i hi
      rw [List.map_cons, List.mem_cons, not_or] at hi
      rw [h3 p hp i hi.2, setColumn_at _ he _ _ _ _ hp, if_neg hi.1]

/-- The part of row `r` of the residual of the interface scheme that comes from `e`. -/
def partOf (P : Problem K S) (t : ℕ → K) (e r : ℕ) (u : ℕ → K) : K :=
  ((P.tdofs e).zipIdx.map fun p => if p.1 = r then P.interior e (P.cb t u) t u p.2 else 0).sum

theorem facetC_eq (P : Problem K S) (hs : Spaces P) (t : ℕ → K) (b e : ℕ) (st : StC K S) :
    (facetC P t b st e).u = st.u ∧ ∀ r c, (facetC P t b st e).C r c = st.C r c +
      if c ∈ P.udofs b then centralDiff (partOf P t e r) st.u c (stepSize P.eps (st.u c)) else 0 := by
  obtain ⟨d', M', h1, h2, -⟩ := dofC_fold P t e (hs.t e) st.u (P.udofs b).zipIdx
    (fun x hx y hy hxy => (zipIdx_inj (hs.u b) hx hy).2 hxy) st.data (fun _ _ => 0)
  unfold facetC
  simp only [h1, true_and]
  intro r c
  rw [addLocalMatrix_apply]
  congr 1
  have : ((P.tdofs e).zipIdx.map fun p => if p.1 = r then
      ((P.udofs b).zipIdx.map fun q => if q.1 = c then M' p.2 q.2 else 0).sum else 0)
      = (P.tdofs e).zipIdx.map fun p => if p.1 = r then (if c ∈ P.udofs b then quotientC P t st.u e c p.2 else 0) else 0 := by
    refine List.map_congr_left fun p hp => ?_
    congr 1
    exact sum_dof _ (hs.u b) c _ _ fun q hq e' => by rw [h2 p hp q hq, e']
  rw [this]
  by_cases hc : c ∈ P.udofs b
  · simp only [if_pos hc]
    unfold centralDiff partOf
    rw [← sum_sub_div]
    congr 1
    refine List.map_congr_left fun p _ => ?_
    by_cases hr : p.1 = r
    · simp only [if_pos hr, quotientC]
    · simp [hr]
  · simp [hc]

theorem facets_fold (P : Problem K S) (hs : Spaces P) (t : ℕ → K) (b : ℕ) (l : List ℕ) (st : StC K S) :
    (l.foldl (facetC P t b) st).u = st.u ∧ ∀ r c, (l.foldl (facetC P t b) st).C r c = st.C r c +
      (l.map fun e => if c ∈ P.udofs b then centralDiff (partOf P t e r) st.u c (stepSize P.eps (st.u c)) else 0).sum := by
  induction l generalizing st with
  | nil => simp
  | cons e l ih =>
    rw [List.foldl_cons]
    obtain ⟨h1, h2⟩ := facetC_eq P hs t b e st
    obtain ⟨g1, g2⟩ := ih (facetC P t b st e)
    refine ⟨g1.trans h1, fun r c => ?_⟩
    rw [g2, h2, h1, List.map_cons, List.sum_cons, add_assoc]

theorem assembleC_fold (P : Problem K S) (hs : Spaces P) (t : ℕ → K) (bs : List ℕ) (st : StC K S) :
    (bs.foldl (fun st b => (P.facets b).foldl (facetC P t b) st) st).u = st.u ∧
    ∀ r c, (bs.foldl (fun st b => (P.facets b).foldl (facetC P t b) st) st).C r c = st.C r c +
      (bs.map fun b => ((P.facets b).map fun e => if c ∈ P.udofs b then
        centralDiff (partOf P t e r) st.u c (stepSize P.eps (st.u c)) else 0).sum).sum := by
  induction bs generalizing st with
  | nil => simp
  | cons b bs ih =>
    rw [List.foldl_cons]
    obtain ⟨h1, h2⟩ := facets_fold P hs t b (P.facets b) st
    obtain ⟨g1, g2⟩ := ih ((P.facets b).foldl (facetC P t b) st)
    refine ⟨g1.trans h1, fun r c => ?_⟩
    rw [g2, h2, h1, List.map_cons, List.sum_cons, add_assoc]

/-- What is assumed of the grid: the lists of elements have no repetitions, and the interface elements found at a bulk
element are those it is adjacent to. -/
structure Topology (P : Problem K S) (es bs : List ℕ) : Prop where
  nodup_es : es.Nodup
  nodup_bs : bs.Nodup
  nodup_facets : ∀ b ∈ bs, (P.facets b).Nodup
  mem : ∀ b ∈ bs, ∀ e, e ∈ P.facets b ↔ e ∈ es ∧ (P.inside e = b ∨ P.outside e = some b)
  inside : ∀ e ∈ es, P.inside e ∈ bs
  outside : ∀ e ∈ es, ∀ b, P.outside e = some b → b ∈ bs ∧ b ≠ P.inside e

/-- At how many of the two elements at `e` dof `c` is found. -/
def sides (P : Problem K S) (e c : ℕ) : ℕ :=
  (if c ∈ P.udofs (P.inside e) then 1 else 0) +
    match P.outside e with
    | some b => if c ∈ P.udofs b then 1 else 0
    | none => 0

theorem sum_extend (l es : List ℕ) (hl : l.Nodup) (hes : es.Nodup) (hsub : ∀ e ∈ l, e ∈ es) (f : ℕ → K) :
    (l.map f).sum = (es.map fun e => if e ∈ l then f e else 0).sum := by
  rw [← List.sum_toFinset _ hl, ← List.sum_toFinset _ hes, ← Finset.sum_filter]
  refine Finset.sum_congr ?_ fun _ _ => rfl
  ext e
  simp only [List.mem_toFinset, Finset.mem_filter]
  exact ⟨fun h => ⟨hsub e h, h⟩, fun h => h.2⟩

/-- **C77** Entry `(r, c)` of the block `C` is the sum over the interface elements of the central difference quotient of
their part of the residual, each taken as often as dof `c` is found at the two adjacent elements. -/
theorem C77_assembleC (P : Problem K S) (hs : Spaces P) (es bs : List ℕ) (ht : Topology P es bs) (t u : ℕ → K) (data : S) :
    (assembleC P bs t u data).u = u ∧ ∀ r c, (assembleC P bs t u data).C r c
      = (es.map fun e => sides P e c * centralDiff (fun u =>
        ((P.tdofs e).zipIdx.map fun p => if p.1 = r then P.interior e (P.cb t u) t u p.2 else 0).sum)
          u c (max (u c * P.eps) P.eps)).sum := by
  obtain ⟨h1, h2⟩ := assembleC_fold P hs t bs ⟨u, data, fun _ _ => 0⟩
  refine ⟨h1, fun r c => ?_⟩
  unfold assembleC
  rw [h2, zero_add]
  simp only
  set X : ℕ → K := fun e => centralDiff (partOf P t e r) u c (stepSize P.eps (u c)) with hX
  have e1 : (bs.map fun b => ((P.facets b).map fun e => if c ∈ P.udofs b then X e else 0).sum)
      = bs.map fun b => (es.map fun e => if e ∈ P.facets b then (if c ∈ P.udofs b then X e else 0) else 0).sum := by
    refine List.map_congr_left fun b hb => ?_
    exact sum_extend _ _ (ht.nodup_facets b hb) ht.nodup_es (fun e he => ((ht.mem b hb e).1 he).1) _
  have e2 : (bs.map fun b => (es.map fun e => if e ∈ P.facets b then (if c ∈ P.udofs b then X e else 0) else 0).sum).sum
      = (es.map fun e => (bs.map fun b => if e ∈ P.facets b then (if c ∈ P.udofs b then X e else 0) else 0).sum).sum := by
    rw [← List.sum_toFinset _ ht.nodup_bs, ← List.sum_toFinset _ ht.nodup_es]
    simp_rw [← List.sum_toFinset _ ht.nodup_bs, ← List.sum_toFinset _ ht.nodup_es]
    exact Finset.sum_comm
  change (bs.map fun b => ((P.facets b).map fun e => if c ∈ P.udofs b then X e else 0).sum).sum = _
  rw [e1, e2]
  congr 1
  refine List.map_congr_left fun e he => ?_
  change _ = (sides P e c : K) * X e
  rw [← List.sum_toFinset _ ht.nodup_bs]
  have e3 : ∀ b ∈ bs.toFinset, (if e ∈ P.facets b then (if c ∈ P.udofs b then X e else 0) else 0)
      = (if b = P.inside e then (if c ∈ P.udofs b then X e else 0) else 0)
        + (if P.outside e = some b then (if c ∈ P.udofs b then X e else 0) else 0) := by
    intro b hb
    rw [List.mem_toFinset] at hb
    have hm := ht.mem b hb e
    by_cases hi : b = P.inside e
    · have ho : P.outside e ≠ some b := fun h => (ht.outside e he b h).2 hi
      rw [if_pos (hm.2 ⟨he, Or.inl hi.symm⟩), if_pos hi, if_neg ho, add_zero]
    · by_cases ho : P.outside e = some b
      · rw [if_pos (hm.2 ⟨he, Or.inr ho⟩), if_neg hi, if_pos ho, zero_add]
      · rw [if_neg fun h => ((hm.1 h).2.elim (fun h => hi h.symm) ho), if_neg hi, if_neg ho, zero_add]
  rw [Finset.sum_congr rfl e3, Finset.sum_add_distrib]
  have e4 : (∑ b ∈ bs.toFinset, if b = P.inside e then (if c ∈ P.udofs b then X e else 0) else 0)
      = if c ∈ P.udofs (P.inside e) then X e else 0 := by
    rw [Finset.sum_ite_eq']
    rw [if_pos (List.mem_toFinset.2 (ht.inside e he))]
  rw [e4]
  unfold sides
  cases ho : P.outside e with
  | none =>
    have : (∑ b ∈ bs.toFinset, if (none : Option ℕ) = some b then (if c ∈ P.udofs b then X e else 0) else (0 : K)) = 0 :=
      Finset.sum_eq_zero fun b _ => if_neg (by simp)
    rw [this]
    by_cases hc : c ∈ P.udofs (P.inside e) <;> simp [hc]
  | some b =>
    have : (∑ x ∈ bs.toFinset, if some b = some x then (if c ∈ P.udofs x then X e else 0) else (0 : K))
        = if c ∈ P.udofs b then X e else 0 := by
      simp only [Option.some.injEq]
      rw [Finset.sum_ite_eq]
      rw [if_pos (List.mem_toFinset.2 (ht.outside e he b ho).1)]
    rw [this]
    by_cases hc : c ∈ P.udofs (P.inside e) <;> by_cases hb : c ∈ P.udofs b <;> simp [hc, hb] <;> ring

theorem centralDiff_local (P : Problem K S) (hl : Local P) (t u : ℕ → K) (e r c : ℕ) (h : sides P e c = 0) (s : K) :
    centralDiff (partOf P t e r) u c s = 0 := by
  unfold sides at h
  have h1 : c ∉ P.udofs (P.inside e) := fun hc => by simp [hc] at h
  have h2 : ∀ b, P.outside e = some b → c ∉ P.udofs b := fun b hb hc => by simp [hb, hc] at h
  have : P.interior e (P.cb t (moved u c s)) t (moved u c s) = P.interior e (P.cb t (moved u c (-s))) t (moved u c (-s)) := by
    refine hl.interior e t _ _ ?_ ?_
    · intro k hk
      have : k ≠ c := fun h => h1 (h ▸ hk)
      simp [moved, this]
    · intro b hb k hk
      have : k ≠ c := fun h => h2 b hb (h ▸ hk)
      simp [moved, this]
  unfold centralDiff partOf
  rw [this]
  simp

/-- **C77** For discontinuous bulk spaces (dof `c` belongs to one element) the entry is the central difference
quotient of the residual of the interface scheme. Continuous bulk spaces: see C131. -/
theorem C77_discontinuous (P : Problem K S) (hs : Spaces P) (hl : Local P) (es bs : List ℕ) (ht : Topology P es bs)
    (t u : ℕ → K) (data : S) (r c : ℕ) (hc : ∀ b ∈ bs, ∀ b' ∈ bs, c ∈ P.udofs b → c ∈ P.udofs b' → b = b') :
    (assembleC P bs t u data).C r c = centralDiff (residualC P es t r) u c (max (u c * P.eps) P.eps) := by
  rw [(C77_assembleC P hs es bs ht t u data).2]
  unfold residualC
  rw [centralDiff, ← sum_sub_div]
  congr 1
  refine List.map_congr_left fun e he => ?_
  change (sides P e c : K) * centralDiff (partOf P t e r) u c (stepSize P.eps (u c))
    = centralDiff (partOf P t e r) u c (stepSize P.eps (u c))
  have : sides P e c = 0 ∨ sides P e c = 1 := by
    unfold sides
    cases ho : P.outside e with
    | none => by_cases h : c ∈ P.udofs (P.inside e) <;> simp [h]
    | some b =>
      obtain ⟨hb, hne⟩ := ht.outside e he b ho
      by_cases h : c ∈ P.udofs (P.inside e)
      · have : c ∉ P.udofs b := fun hcb => hne (hc b hb _ (ht.inside e he) hcb h)
        simp [h, this]
      · by_cases h' : c ∈ P.udofs b <;> simp [h, h']
  rcases this with h | h
  · rw [centralDiff_local P hl t u e r c h]; simp
  · rw [h]; simp

/-- **C131** For a dof that both elements at each interface element share (a continuous bulk space, a dof on the
interface), the entry is twice the difference quotient. -/
theorem C131_continuous (P : Problem K S) (hs : Spaces P) (hl : Local P) (es bs : List ℕ) (ht : Topology P es bs)
    (t u : ℕ → K) (data : S) (r c : ℕ)
    (hc : ∀ e ∈ es, ∃ b, P.outside e = some b ∧ (c ∈ P.udofs (P.inside e) ↔ c ∈ P.udofs b)) :
    (assembleC P bs t u data).C r c = 2 * centralDiff (residualC P es t r) u c (max (u c * P.eps) P.eps) := by
  rw [(C77_assembleC P hs es bs ht t u data).2]
  have : centralDiff (residualC P es t r) u c (max (u c * P.eps) P.eps)
      = (es.map fun e => centralDiff (partOf P t e r) u c (stepSize P.eps (u c))).sum := by
    unfold residualC
    rw [centralDiff, ← sum_sub_div]
    rfl
  rw [this, ← List.sum_map_mul_left]
  congr 1
  refine List.map_congr_left fun e he => ?_
  change (sides P e c : K) * centralDiff (partOf P t e r) u c (stepSize P.eps (u c))
    = 2 * centralDiff (partOf P t e r) u c (stepSize P.eps (u c))
  obtain ⟨b, hb, hiff⟩ := hc e he
  by_cases h : c ∈ P.udofs (P.inside e)
  · have : sides P e c = 2 := by simp [sides, hb, h, hiff.1 h]
    rw [this]; norm_num
  · have : sides P e c = 0 := by
      have h' : c ∉ P.udofs b := fun hh => h (hiff.2 hh)
      simp [sides, hb, h, h']
    rw [centralDiff_local P hl t u e r c this]; simp

/-! ## Example: two bulk elements with an interface element between them -/

/-- Two linear elements in one dimension, dofs 0, 1 and 2, 3 (discontinuous) or 0, 1 and 1, 2 (continuous); one interface
element with dof 0; the flux `3 t u` over the interface is subtracted inside and added outside; the interface scheme
integrates the sum of the two traces. -/
def exProblem (right : List ℕ) : Problem ℚ Unit where
  eps := 1 / 8
  tdofs := fun _ => [0]
  udofs := fun b => if b = 0 then [0, 1] else if b = 1 then right else []
  inside := fun _ => 0
  outside := fun _ => some 1
  facets := fun b => if b = 0 ∨ b = 1 then [0] else []
  cb := fun _ _ => ()
  skel := fun _ _ t u => (fun j => if j = 1 then -(3 * t 0 * u 1) else 0, fun j => if j = 0 then 3 * t 0 * u 1 else 0)
  interior := fun _ _ _ u => fun _ => u 1 + u (right.headD 0)

theorem exProblem_spaces (right : List ℕ) (h : right.Nodup) : Spaces (exProblem right) := by
  constructor
  · intro e
    simp [exProblem]
  · intro b
    by_cases hb : b = 0
    · simp [exProblem, hb]
    · by_cases hb' : b = 1
      · simpa [exProblem, hb'] using h
      · simp [exProblem, hb, hb']

theorem exProblem_topology (right : List ℕ) : Topology (exProblem right) [0] [0, 1] where
  nodup_es := by simp
  nodup_bs := by simp
  nodup_facets := by intro b _; by_cases hb : b = 0 ∨ b = 1 <;> simp [exProblem, hb]
  mem := by
    intro b hb e
    have : b = 0 ∨ b = 1 := by simpa using hb
    rcases this with rfl | rfl <;> simp [exProblem]
  inside := by simp [exProblem]
  outside := by simp [exProblem]

/-- Non-vacuity of C76: spaces, the outside element, and the residual of row 2 for `t = 1`, `u = 2`, which is linear in
dof 0 with coefficient 6. -/
example : Spaces (exProblem [2, 3]) ∧ (∀ e ∈ [0], (exProblem [2, 3]).outside e = some ((fun _ => 1) e)) ∧
    (0 : ℚ) < (exProblem [2, 3]).eps ∧
    ∀ s, residualB (exProblem [2, 3]) (fun _ => 1) [0] (fun _ => 2) 2 (moved (fun _ => 1) 0 s) = 6 + 6 * s + 0 * s ^ 2 := by
  refine ⟨exProblem_spaces _ (by simp), by simp [exProblem], by norm_num [exProblem], fun s => ?_⟩
  simp [residualB, exProblem, moved, List.zipIdx]
  ring

theorem exProblem_local (right : List ℕ) (h : right.headD 0 ∈ right) : Local (exProblem right) where
  skel := by
    intro e t t' u hk
    have h0 : t 0 = t' 0 := hk 0 (by simp [exProblem])
    simp [exProblem, h0]
  interior := by
    intro e t u u' hi ho
    have h1 : u 1 = u' 1 := hi 1 (by simp [exProblem])
    have h2 : u (right.headD 0) = u' (right.headD 0) := ho 1 rfl _ (by simpa [exProblem] using h)
    simp only [exProblem, h1, h2]

/-- Non-vacuity of C77: the discontinuous space, dof 1 only belongs to element 0; the continuous space, dof 1 is shared. -/
example : Local (exProblem [2, 3]) ∧ Local (exProblem [1, 2]) ∧
    (∀ b ∈ [0, 1], ∀ b' ∈ [0, 1], 1 ∈ (exProblem [2, 3]).udofs b → 1 ∈ (exProblem [2, 3]).udofs b' → b = b') ∧
    (∀ e ∈ [0], ∃ b, (exProblem [1, 2]).outside e = some b ∧
      (1 ∈ (exProblem [1, 2]).udofs ((exProblem [1, 2]).inside e) ↔ 1 ∈ (exProblem [1, 2]).udofs b)) := by
  refine ⟨exProblem_local _ (by simp), exProblem_local _ (by simp), ?_, ?_⟩
  · simp [exProblem]
  · simp [exProblem]

/-- **C131** is false for continuous bulk spaces: the residual of the interface scheme is `2 u₁`, its derivative is 2, the
entry of the block is 4. -/
theorem C131_continuous_false : ∃ P : Problem ℚ Unit, Spaces P ∧ Local P ∧ Topology P [0] [0, 1] ∧
    (∀ u, residualC P [0] (fun _ => 0) 0 u = 2 * u 1) ∧
    (assembleC P [0, 1] (fun _ => 0) (fun _ => 0) ()).C 0 1 = 4 := by
  refine ⟨exProblem [1, 2], exProblem_spaces _ (by simp), exProblem_local _ (by simp), exProblem_topology _, ?_, ?_⟩
  · intro u
    simp [residualC, exProblem, List.zipIdx]
    ring
  · rw [C131_continuous (exProblem [1, 2]) (exProblem_spaces _ (by simp)) (exProblem_local _ (by simp)) [0] [0, 1]
      (exProblem_topology _) _ _ _ 0 1 (by simp [exProblem])]
    simp [centralDiff, residualC, exProblem, List.zipIdx, moved]
    norm_num

/-! ## C78 -/

theorem update_world (P : Problem K S) (hs : Spaces P) (es bs : List ℕ) (w : World K S)
    (r : World K S × List (World K S) × (ℕ → ℕ → K) × (ℕ → ℕ → K)) (h : update P es bs w = some r) :
    r.1.t = w.t ∧ r.1.u = w.u ∧ r.2.1 = [w, w] := by
  unfold update at h
  obtain ⟨sb, hsb, rfl⟩ := Option.map_eq_some_iff.1 h
  have hall : ∀ e ∈ es, ∃ b, P.outside e = some b := by
    intro e he
    cases ho : P.outside e with
    | some b => exact ⟨b, rfl⟩
    | none =>
      have hn := C130_boundary_false P es e he ho w.t w.u w.data
      rw [hn] at hsb
      cases hsb
  obtain ⟨st, h1, h2, -⟩ := assembleB_fold P w.u (fun e => (P.outside e).getD 0) es
    (fun e he => by obtain ⟨b, hb⟩ := hall e he; simp [hb]) hs.t hs.u ⟨w.t, w.data, fun _ _ => 0⟩
  have : sb = st := by
    have h1' : assembleB P es w.t w.u w.data = some st := h1
    rw [h1'] at hsb
    exact (Option.some.inj hsb).symm
  subst this
  refine ⟨h2, ?_, rfl⟩
  exact (assembleC_fold P hs sb.t bs ⟨w.u, sb.data, fun _ _ => 0⟩).1

/-- **C78** `update` leaves the interface function and the bulk function as they were. -/
theorem C78_restored (P : Problem K S) (hs : Spaces P) (es bs : List ℕ) (w : World K S)
    (r : World K S × List (World K S) × (ℕ → ℕ → K) × (ℕ → ℕ → K)) (h : update P es bs w = some r) :
    r.1.t = w.t ∧ r.1.u = w.u :=
  ⟨(update_world P hs es bs w r h).1, (update_world P hs es bs w r h).2.1⟩

/-- The data of the callback belong to the functions. -/
def Fresh (P : Problem K S) (w : World K S) : Prop := w.data = P.cb w.t w.u

theorem newtonLoop_fresh (P : Problem K S) (hs : Spaces P) (es bs : List ℕ) (steps : List ((ℕ → K) × (ℕ → K)))
    (w : World K S) (hw : Fresh P w) (r : World K S × List (World K S)) (h : newtonLoop P es bs w steps = some r) :
    Fresh P r.1 ∧ ∀ x ∈ r.2, Fresh P x := by
  induction steps generalizing w r with
  | nil => cases h; exact ⟨hw, by simp⟩
  | cons s steps ih =>
    unfold newtonLoop at h
    obtain ⟨r1, hr1, h⟩ := Option.bind_eq_some_iff.1 h
    obtain ⟨r2, hr2, rfl⟩ := Option.map_eq_some_iff.1 h
    unfold newtonPass at hr1
    obtain ⟨q, hq, rfl⟩ := Option.map_eq_some_iff.1 hr1
    obtain ⟨-, -, h3⟩ := update_world P hs es bs w q hq
    obtain ⟨g1, g2⟩ := ih _ (by unfold Fresh; rfl) _ hr2
    refine ⟨g1, fun x hx => ?_⟩
    simp only [h3] at hx
    simp only [List.mem_append, List.mem_cons, List.not_mem_nil, or_false] at hx
    rcases hx with ((rfl | rfl) | rfl | rfl) | hx
    · exact hw
    · exact hw
    · rfl
    · rfl
    · exact g2 x hx

/-- **C78** In the monolithic Newton method every evaluation of a residual and of the Jacobian of a scheme sees the data
that the callback computed for the current functions, and so does the caller afterwards, for any number of passes and
any results of the linear solver. -/
theorem C78_fresh (P : Problem K S) (hs : Spaces P) (es bs : List ℕ) (t u : ℕ → K) (steps : List ((ℕ → K) × (ℕ → K)))
    (r : World K S × List (World K S)) (h : newton P es bs t u steps = some r) :
    Fresh P r.1 ∧ ∀ x ∈ r.2, Fresh P x := by
  unfold newton at h
  obtain ⟨q, hq, rfl⟩ := Option.map_eq_some_iff.1 h
  obtain ⟨h1, h2⟩ := newtonLoop_fresh P hs es bs steps _ (by unfold Fresh; rfl) q hq
  refine ⟨h1, fun x hx => ?_⟩
  simp only [List.mem_append, List.mem_cons, List.not_mem_nil, or_false] at hx
  rcases hx with (rfl | rfl) | hx
  · rfl
  · rfl
  · exact h2 x hx

/-- Non-vacuity of C78: the method can be run on the example for one pass. -/
example : ∃ r, newton (exProblem [2, 3]) [0] [0, 1] (fun _ => 1) (fun _ => 2) [(fun _ => 1, fun _ => 1)] = some r := by
  obtain ⟨st, h1, -, -⟩ := C76_assembleB (exProblem [2, 3]) (exProblem_spaces _ (by simp)) (exProblem_local _ (by simp)) [0]
    (fun _ => 1) (by simp [exProblem]) (fun _ => 1) (fun _ => 2) ()
  exact ⟨_, by simp [newton, newtonLoop, newtonPass, update, h1]; rfl⟩

/-- The example with a callback that copies the interface function. -/
def exCallback : Problem ℚ (ℕ → ℚ) where
  eps := 1 / 8
  tdofs := fun _ => [0]
  udofs := fun b => [b]
  inside := fun _ => 0
  outside := fun _ => some 1
  facets := fun _ => []
  cb := fun t _ => t
  skel := fun _ s _ _ => (fun _ => s 0, fun _ => s 0)
  interior := fun _ _ _ _ => fun _ => 0

/-- **C132** is false for `update` on its own: after it the data of the callback belong to a modified interface function. -/
theorem C132_update_false : Spaces exCallback ∧ ∃ r, update exCallback [0] [0, 1] ⟨fun _ => 0, fun _ => 0, fun _ => 0⟩ = some r ∧
    Fresh exCallback ⟨fun _ => 0, fun _ => 0, fun _ => 0⟩ ∧ r.1.t 0 = 0 ∧ r.1.data 0 = 1 / 8 := by
  refine ⟨⟨fun _ => by simp [exCallback], fun _ => by simp [exCallback]⟩, _, rfl, rfl, ?_, ?_⟩
  · simp [exCallback, dofB, diffDof, runB, List.zipIdx]
  · simp [exCallback, elementB, dofB, diffDof, runB, assembleC, List.zipIdx]

end Verif.Jacobian
