import Verif.InterfaceTransfer.Model
import Verif.InterfaceOps.History
import Verif.Transfer.Interface
import Mathlib.Analysis.Convex.Basic
import Mathlib.Analysis.Real.Sqrt
import Mathlib.Algebra.BigOperators.Group.Finset.Basic
import Mathlib.Tactic.Linarith
import Mathlib.Tactic.Ring

/-!
# C197: data on the interface over a whole adaptation
-/

namespace Verif.InterfaceTransfer

open Verif RefElem InterfaceOps Transfer

/-! ## Specification -/

/-- Length of a straight line. -/
noncomputable def length (p q : ℝ × ℝ) : ℝ := √((q.1 - p.1) ^ 2 + (q.2 - p.2) ^ 2)

/-- Length of the interface element with the vertices `k`. -/
noncomputable def len (pos : ℕ → ℝ × ℝ) : List ℕ → ℝ
  | [a, b] => length (pos a) (pos b)
  | _ => 0

/-- The points of the interface element with the vertices `k`. -/
def points (pos : ℕ → ℝ × ℝ) : List ℕ → Set (ℝ × ℝ)
  | [a, b] => segment ℝ (pos a) (pos b)
  | _ => ∅

/-- `v` lies on the straight line between `a` and `b`, not at its ends. -/
def Between (pos : ℕ → ℝ × ℝ) (v a b : ℕ) : Prop :=
  ∃ w : ℝ, 0 < w ∧ w < 1 ∧ pos v = (w * (pos a).1 + (1 - w) * (pos b).1, w * (pos a).2 + (1 - w) * (pos b).2)

/-- The vertices `a` and `b` are joined by an interface element. -/
def Elem (s : State) (a b : ℕ) : Prop := sortIds [a, b] ∈ s.segs.map Prod.fst

/-- `v` is a vertex of the interface. -/
def OnInterface (s : State) (v : ℕ) : Prop := ∃ o, Elem s v o

/-- The interface elements are sides of the mesh (`Ok`, see `C111_facets_partial` and `inv_reach`), different interface vertices lie at
different points and two interface elements meet only in common vertices. -/
structure ProperInterface (pos : ℕ → ℝ × ℝ) (s : State) : Prop where
  ok : Ok s
  inj : ∀ v w, OnInterface s v → OnInterface s w → pos v = pos w → v = w
  meet : ∀ a b c d, Elem s a b → Elem s c d → sortIds [a, b] ≠ sortIds [c, d] →
    ∀ x ∈ segment ℝ (pos a) (pos b), x ∈ segment ℝ (pos c) (pos d) → ∃ v, (v = a ∨ v = b) ∧ (v = c ∨ v = d) ∧ x = pos v

/-- Requests that refine interface elements and other edges and insert points in cells, where no interface element is refined twice;
and that remove vertices off the interface and vertices of the interface with exactly two elements that form a straight line. A removed
vertex belongs to no element that is refined, and no two of them to the same element. -/
structure Requests (ident : List ℕ → ℕ) (pos : ℕ → ℝ × ℝ) (s : State) (rs : List (IReq ℝ)) (vs : List ℕ) : Prop where
  insert : ∀ r ∈ rs,
    (∃ a b, r.req = .edge a b true ∧ Elem s a b ∧ 0 < r.at' ∧ r.at' < 1 ∧ ∃ g, Copy ident pos (sortIds [a, b]) g ∧ r.comp = [g]) ∨
    (∃ a b, r.req = .edge a b false ∧ ¬ Elem s a b ∧ a < s.next ∧ b < s.next) ∨ r.req = .cell
  once : rs.Pairwise fun r r' => ∀ a b a' b', r.req = .edge a b true → r'.req = .edge a' b' true → sortIds [a, b] ≠ sortIds [a', b']
  remove : ∀ v ∈ vs, v < s.next ∧ (s.flag v = false ∨
    ∃ o o', o ≠ o' ∧ (∀ x, Elem s v x ↔ x = o ∨ x = o') ∧ Between pos v o o')
  apart : ∀ v ∈ vs, ∀ r ∈ rs, ∀ a b, r.req = .edge a b true → v ≠ a ∧ v ≠ b
  apart' : vs.Pairwise fun v w => v ≠ w ∧ ¬ Elem s v w

/-- Sum of length times value over the interface elements. -/
noncomputable def integral (ident : List ℕ → ℕ) (pos : ℕ → ℝ × ℝ) (s : State) (val : ℕ → ℝ) : ℝ :=
  (s.segs.map fun e => len pos e.1 * val (ident e.1)).sum

/-! ## Geometry -/

theorem length_comm (p q : ℝ × ℝ) : length p q = length q p := by
  unfold length
  congr 1
  ring

theorem perm_pair {l : List ℕ} {a b : ℕ} (h : l.Perm [a, b]) : l = [a, b] ∨ l = [b, a] := by
  match l, h.length_eq with
  | [x, y], _ =>
    have hx : x ∈ [a, b] := h.subset (by simp)
    simp only [List.mem_cons, List.not_mem_nil, or_false] at hx
    rcases hx with rfl | rfl
    · have := List.perm_singleton.1 ((List.perm_cons x).1 h)
      left; simpa using this
    · have := List.perm_singleton.1 ((List.perm_cons x).1 (h.trans (List.Perm.swap x a [])))
      right; simpa using this

theorem key_cases (a b : ℕ) : key a b = [a, b] ∨ key a b = [b, a] := by
  have hp : (key a b).Perm [a, b] := by
    have := sort_eq_iff.1 (sort_key a b)
    exact this
  exact perm_pair hp

theorem len_key (pos : ℕ → ℝ × ℝ) (a b : ℕ) : len pos (key a b) = length (pos a) (pos b) := by
  rcases key_cases a b with h | h <;> rw [h]
  · rfl
  · exact length_comm _ _

theorem points_key (pos : ℕ → ℝ × ℝ) (a b : ℕ) : points pos (key a b) = segment ℝ (pos a) (pos b) := by
  rcases key_cases a b with h | h <;> rw [h]
  · rfl
  · exact segment_symm ℝ _ _

theorem Between.symm {pos : ℕ → ℝ × ℝ} {v a b : ℕ} (h : Between pos v a b) : Between pos v b a := by
  obtain ⟨w, h0, h1, e⟩ := h
  refine ⟨1 - w, by linarith, by linarith, ?_⟩
  rw [e]
  ext <;> simp only <;> ring

theorem length_smul {p q : ℝ × ℝ} {w : ℝ} (hw : 0 ≤ w) (d : ℝ × ℝ) (h1 : q.1 - p.1 = w * d.1) (h2 : q.2 - p.2 = w * d.2) :
    length p q = w * √(d.1 ^ 2 + d.2 ^ 2) := by
  unfold length
  rw [h1, h2, show (w * d.1) ^ 2 + (w * d.2) ^ 2 = w ^ 2 * (d.1 ^ 2 + d.2 ^ 2) by ring, Real.sqrt_mul (sq_nonneg w), Real.sqrt_sq hw]

theorem Between.length {pos : ℕ → ℝ × ℝ} {v a b : ℕ} (h : Between pos v a b) :
    len pos (key v a) + len pos (key v b) = len pos (key a b) := by
  obtain ⟨w, h0, h1, e⟩ := h
  have e1 := congrArg Prod.fst e
  have e2 := congrArg Prod.snd e
  simp only at e1 e2
  rw [len_key, len_key, len_key]
  rw [length_smul (w := 1 - w) (by linarith) ((pos a).1 - (pos b).1, (pos a).2 - (pos b).2) (by simp only; rw [e1]; ring) (by simp only; rw [e2]; ring),
    length_comm, length_smul (w := w) h0.le ((pos a).1 - (pos b).1, (pos a).2 - (pos b).2) (by simp only; rw [e1]; ring) (by simp only; rw [e2]; ring),
    length_comm, length_smul (w := 1) zero_le_one ((pos a).1 - (pos b).1, (pos a).2 - (pos b).2) (by ring) (by ring)]
  ring

theorem len_pos {pos : ℕ → ℝ × ℝ} {a b : ℕ} (h : pos a ≠ pos b) : 0 < len pos (key a b) := by
  rw [len_key]
  unfold InterfaceTransfer.length
  refine Real.sqrt_pos.2 ?_
  rcases eq_or_ne (pos b).1 (pos a).1 with e1 | e1
  · have e2 : (pos b).2 ≠ (pos a).2 := fun e2 => h (Prod.ext e1.symm e2.symm)
    have := sq_pos_of_ne_zero (sub_ne_zero.2 e2)
    nlinarith [sq_nonneg ((pos b).1 - (pos a).1)]
  · have := sq_pos_of_ne_zero (sub_ne_zero.2 e1)
    nlinarith [sq_nonneg ((pos b).2 - (pos a).2)]

theorem len_nonneg (pos : ℕ → ℝ × ℝ) (k : List ℕ) : 0 ≤ len pos k := by
  unfold len
  split
  · exact Real.sqrt_nonneg _
  · exact le_refl _

theorem Between.points {pos : ℕ → ℝ × ℝ} {v a b : ℕ} (h : Between pos v a b) :
    points pos (key v a) ∪ points pos (key v b) = points pos (key a b) := by
  have hv : pos v ∈ segment ℝ (pos a) (pos b) := by
    obtain ⟨w, h0, h1, e⟩ := h
    refine ⟨w, 1 - w, h0.le, by linarith, by ring, ?_⟩
    rw [e]
    rfl
  rw [points_key, points_key, points_key, segment_symm ℝ (pos v) (pos a)]
  apply subset_antisymm
  · refine Set.union_subset ?_ ?_
    · exact (convex_segment _ _).segment_subset (left_mem_segment ℝ _ _) hv
    · exact (convex_segment _ _).segment_subset hv (right_mem_segment ℝ _ _)
  · obtain ⟨w, h0, h1, e⟩ := h
    rintro x ⟨p, q, hp, hq, hpq, rfl⟩
    rcases le_or_gt w p with hwp | hwp
    · left
      refine ⟨(p - w) / (1 - w), q / (1 - w), div_nonneg (by linarith) (by linarith), div_nonneg hq (by linarith), ?_, ?_⟩
      · rw [← add_div, div_eq_one_iff_eq (by linarith)]; linarith
      · have hq' : q = 1 - p := by linarith
        subst hq'
        have hw : (1 - w) ≠ 0 := by linarith
        rw [e]
        ext <;> simp only [Prod.fst_add, Prod.snd_add, Prod.smul_fst, Prod.smul_snd, smul_eq_mul] <;> field_simp <;> ring
    · right
      refine ⟨p / w, 1 - p / w, div_nonneg hp h0.le, ?_, by ring, ?_⟩
      · rw [sub_nonneg, div_le_one h0]; exact hwp.le
      · have hq' : q = 1 - p := by linarith
        subst hq'
        have hw : w ≠ 0 := by linarith
        rw [e]
        ext <;> simp only [Prod.fst_add, Prod.snd_add, Prod.smul_fst, Prod.smul_snd, smul_eq_mul] <;> field_simp <;> ring

/-! ## The map of components -/

theorem find_mark_one (m : List (List ℕ × List (Segment ℝ))) (k : List ℕ) (c : List (Segment ℝ)) (hk : Map.find m k = none) (j : List ℕ) :
    Map.find (markAsRefined m [k] c) j = if j = k then some c else Map.find m j := Map.find_insert_new hk j

theorem find_mark_two (m : List (List ℕ × List (Segment ℝ))) (k k' : List ℕ) (c : List (Segment ℝ)) (hk : Map.find m k = none)
    (hk' : Map.find m k' = none) (j : List ℕ) :
    Map.find (markAsRefined m [k, k'] c) j = if j = k ∨ j = k' then some c else Map.find m j := by
  show Map.find (Map.insert (Map.insert m k c) k' c) j = _
  by_cases hkk : k' = k
  · subst hkk
    rw [Map.insert_old (y := c) (by rw [Map.find_insert_new hk, if_pos rfl]), Map.find_insert_new hk]
    simp
  · rw [Map.find_insert_new (by rw [Map.find_insert_new hk, if_neg hkk]; exact hk'), Map.find_insert_new hk]
    by_cases h1 : j = k' <;> by_cases h2 : j = k <;> simp [h1, h2]

/-! ## The invariant -/

variable (ident : List ℕ → ℕ) (pos : ℕ → ℝ × ℝ) (s0 : State) (val : ℕ → ℝ)

/-- The interface elements. -/
def keys (s : State) : Finset (List ℕ) := (s.segs.map Prod.fst).toFinset

theorem mem_keys {s : State} {k : List ℕ} : k ∈ keys s ↔ ∃ m, Map.find s.segs k = some m := by
  unfold keys
  rw [List.mem_toFinset, Map.find_isSome_iff]

theorem elem_iff {s : State} {a b : ℕ} : Elem s a b ↔ key a b ∈ keys s := by
  unfold Elem keys
  rw [List.mem_toFinset]
  rfl

/-- The value that the loop gives to an element: by its entry in the map. -/
noncomputable def expect (comp : List (List ℕ × List (Segment ℝ))) (k : List ℕ) : ℝ :=
  match Map.find comp k with
  | none => val (ident k)
  | some [g] => val g.id
  | some [g, g'] => (length g.a g.b * val g.id + length g'.a g'.b * val g'.id) / len pos k
  | some _ => 0

/-- Where an element comes from. -/
def Origin (t : IState ℝ) (k : List ℕ) : Prop :=
  (Map.find t.comp k = none ∧ k ∈ keys s0) ∨
  (∃ v a b g, k = key v a ∧ s0.next ≤ v ∧ key a b ∈ keys s0 ∧ key a b ∉ keys t.s ∧ Between pos v a b ∧
    Copy ident pos (key a b) g ∧ Map.find t.comp k = some [g]) ∨
  (∃ v o o' g g', k = key o o' ∧ key v o ∈ keys s0 ∧ key v o ∉ keys t.s ∧ key v o' ∈ keys s0 ∧ key v o' ∉ keys t.s ∧ Between pos v o o' ∧
    Copy ident pos (key v o) g ∧ Copy ident pos (key v o') g' ∧ Map.find t.comp k = some [g, g'])

structure Good (t : IState ℝ) : Prop where
  proper : ProperInterface pos t.s
  next : s0.next ≤ t.s.next
  flag : ∀ v, v < s0.next → t.s.flag v = s0.flag v
  origin : ∀ k ∈ keys t.s, Origin ident pos s0 t k
  comp : ∀ k, Map.find t.comp k ≠ none → k ∈ keys t.s
  sum : ∑ k ∈ keys t.s, len pos k * expect ident pos val t.comp k = ∑ k ∈ keys s0, len pos k * val (ident k)
  shape : ∀ x, (∃ k ∈ keys t.s, x ∈ points pos k) ↔ ∃ k ∈ keys s0, x ∈ points pos k

/-- The old elements with `P` are as they were. -/
def Kept (P : List ℕ → Prop) (t : IState ℝ) : Prop := ∀ k ∈ keys s0, P k → k ∈ keys t.s ∧ Map.find t.comp k = none

variable {ident pos s0 val}

theorem copy_key {a b : ℕ} {g : Segment ℝ} (h : Copy ident pos (key a b) g) :
    g.id = ident (key a b) ∧ ((g.a = pos a ∧ g.b = pos b) ∨ (g.a = pos b ∧ g.b = pos a)) := by
  obtain ⟨h1, x, y, hk, hx, hy⟩ := h
  refine ⟨h1, ?_⟩
  rcases key_eq_iff.1 hk with ⟨rfl, rfl⟩ | ⟨rfl, rfl⟩
  · exact Or.inl ⟨hx, hy⟩
  · exact Or.inr ⟨hx, hy⟩

theorem copy_length {a b : ℕ} {g : Segment ℝ} (h : Copy ident pos (key a b) g) : length g.a g.b = len pos (key a b) := by
  rw [len_key]
  rcases (copy_key h).2 with ⟨h1, h2⟩ | ⟨h1, h2⟩
  · rw [h1, h2]
  · rw [h1, h2, length_comm]

theorem expect_none {comp : List (List ℕ × List (Segment ℝ))} {k : List ℕ} (h : Map.find comp k = none) :
    expect ident pos val comp k = val (ident k) := by
  unfold expect
  rw [h]

theorem expect_one {comp : List (List ℕ × List (Segment ℝ))} {k : List ℕ} {g : Segment ℝ} (h : Map.find comp k = some [g]) :
    expect ident pos val comp k = val g.id := by
  unfold expect
  rw [h]

theorem expect_two {comp : List (List ℕ × List (Segment ℝ))} {k : List ℕ} {g g' : Segment ℝ} (h : Map.find comp k = some [g, g']) :
    expect ident pos val comp k = (length g.a g.b * val g.id + length g'.a g'.b * val g'.id) / len pos k := by
  unfold expect
  rw [h]

theorem expect_congr {comp comp' : List (List ℕ × List (Segment ℝ))} {k : List ℕ} (h : Map.find comp' k = Map.find comp k) :
    expect ident pos val comp' k = expect ident pos val comp k := by
  unfold expect
  rw [h]

theorem origin_mono {t t' : IState ℝ} {k : List ℕ} (hc : Map.find t'.comp k = Map.find t.comp k)
    (hs : ∀ j ∈ keys s0, j ∉ keys t.s → j ∉ keys t'.s) (h : Origin ident pos s0 t k) : Origin ident pos s0 t' k := by
  rcases h with ⟨h1, h2⟩ | ⟨v, a, b, g, h1, h2, h3, h4, h5, h6, h7⟩ | ⟨v, o, o', g, g', h1, h2, h3, h4, h5, h6, h7, h8, h9⟩
  · exact Or.inl ⟨hc ▸ h1, h2⟩
  · exact Or.inr (Or.inl ⟨v, a, b, g, h1, h2, h3, hs _ h3 h4, h5, h6, hc ▸ h7⟩)
  · exact Or.inr (Or.inr ⟨v, o, o', g, g', h1, h2, hs _ h2 h3, h4, hs _ h4 h5, h6, h7, h8, hc ▸ h9⟩)

theorem key_lt {s : State} (h : Ok s) {a b : ℕ} (hk : key a b ∈ keys s) : a ≠ b ∧ a < s.next ∧ b < s.next := by
  obtain ⟨m, hm⟩ := mem_keys.1 hk
  exact edge_lt h (h.flags hm).2.2.2

theorem key_of_mem {s : State} (h : Ok s) {k : List ℕ} (hk : k ∈ keys s) : ∃ a b, a ≠ b ∧ k = key a b := by
  obtain ⟨m, hm⟩ := mem_keys.1 hk
  obtain ⟨a, b, hab, e, -⟩ := h.pair _ (Map.mem_of_find hm)
  exact ⟨a, b, hab, e⟩

theorem onInterface_left {s : State} {a b : ℕ} (h : Elem s a b) : OnInterface s a := ⟨b, h⟩

theorem onInterface_right {s : State} {a b : ℕ} (h : Elem s a b) : OnInterface s b := ⟨a, elem_iff.2 (by rw [key_comm]; exact elem_iff.1 h)⟩

theorem Between.mem {v a b : ℕ} (h : Between pos v a b) : pos v ∈ segment ℝ (pos a) (pos b) := by
  obtain ⟨w, h0, h1, e⟩ := h
  refine ⟨w, 1 - w, h0.le, by linarith, by ring, ?_⟩
  rw [e]
  rfl

/-- The part of a straight line on one side of an inner point does not reach the other end. -/
theorem Between.half {v a b : ℕ} (h : Between pos v a b) (hab : pos a ≠ pos b) : pos b ∉ segment ℝ (pos v) (pos a) := by
  obtain ⟨w, h0, h1, e⟩ := h
  rintro ⟨p, q, hp, hq, hpq, hx⟩
  have e1 := congrArg Prod.fst e
  have e2 := congrArg Prod.snd e
  have x1 := congrArg Prod.fst hx
  have x2 := congrArg Prod.snd hx
  simp only [Prod.fst_add, Prod.snd_add, Prod.smul_fst, Prod.smul_snd, smul_eq_mul] at e1 e2 x1 x2
  have hq' : q = 1 - p := by linarith
  subst hq'
  have hf : 0 < 1 - p * (1 - w) := by nlinarith
  apply hab
  ext
  · have : (1 - p * (1 - w)) * ((pos a).1 - (pos b).1) = 0 := by rw [e1] at x1; linarith
    rcases mul_eq_zero.1 this with h | h
    · linarith
    · linarith
  · have : (1 - p * (1 - w)) * ((pos a).2 - (pos b).2) = 0 := by rw [e2] at x2; linarith
    rcases mul_eq_zero.1 this with h | h
    · linarith
    · linarith

theorem Between.ne {v a b : ℕ} (h : Between pos v a b) (hab : pos a ≠ pos b) : pos v ≠ pos a ∧ pos v ≠ pos b := by
  have h1 := h.half hab
  have h2 := h.symm.half hab.symm
  exact ⟨fun e => h2 (e ▸ left_mem_segment ℝ _ _), fun e => h1 (e ▸ left_mem_segment ℝ _ _)⟩

/-- The two parts have only the inner point in common. -/
theorem Between.inter {v a b : ℕ} (h : Between pos v a b) (hab : pos a ≠ pos b) {x : ℝ × ℝ} (ha : x ∈ segment ℝ (pos v) (pos a))
    (hb : x ∈ segment ℝ (pos v) (pos b)) : x = pos v := by
  obtain ⟨w, h0, h1, e⟩ := h
  obtain ⟨p, q, hp, hq, hpq, rfl⟩ := ha
  obtain ⟨r, t, hr, ht, hrt, hx⟩ := hb
  have e1 := congrArg Prod.fst e
  have e2 := congrArg Prod.snd e
  have x1 := congrArg Prod.fst hx
  have x2 := congrArg Prod.snd hx
  simp only [Prod.fst_add, Prod.snd_add, Prod.smul_fst, Prod.smul_snd, smul_eq_mul] at e1 e2 x1 x2
  have hp' : p = 1 - q := by linarith
  have hr' : r = 1 - t := by linarith
  subst hp' hr'
  -- `t w (b - a) = q (1 - w) (a - b)`
  have hsum : t * w + q * (1 - w) = 0 := by
    by_contra hne
    apply hab
    ext
    · have : (t * w + q * (1 - w)) * ((pos a).1 - (pos b).1) = 0 := by rw [e1] at x1; linarith
      rcases mul_eq_zero.1 this with h | h
      · exact absurd h hne
      · linarith
    · have : (t * w + q * (1 - w)) * ((pos a).2 - (pos b).2) = 0 := by rw [e2] at x2; linarith
      rcases mul_eq_zero.1 this with h | h
      · exact absurd h hne
      · linarith
  have hq0 : q = 0 := by
    have a1 : 0 ≤ t * w := mul_nonneg ht h0.le
    have a2 : 0 ≤ q * (1 - w) := mul_nonneg hq (by linarith)
    have a3 : q * (1 - w) = 0 := by linarith
    rcases mul_eq_zero.1 a3 with h | h
    · exact h
    · linarith
  subst hq0
  simp

theorem ProperInterface.apart {s : State} (h : ProperInterface pos s) {a b : ℕ} (hab : Elem s a b) : pos a ≠ pos b :=
  fun e => (key_lt h.ok (elem_iff.1 hab)).1 (h.inj a b (onInterface_left hab) (onInterface_right hab) e)

/-- No vertex lies inside of an element. -/
theorem ProperInterface.free {s : State} (h : ProperInterface pos s) (v a b : ℕ) (hv : OnInterface s v) (hab : Elem s a b) : ¬ Between pos v a b := by
  intro hb
  obtain ⟨o, hvo⟩ := hv
  have hne := hb.ne (h.apart hab)
  by_cases hk : sortIds [v, o] = sortIds [a, b]
  · rcases key_eq_iff.1 hk with ⟨rfl, -⟩ | ⟨rfl, -⟩
    · exact hne.1 rfl
    · exact hne.2 rfl
  · obtain ⟨c, hc1, hc2, hc⟩ := h.meet v o a b hvo hab hk (pos v) (left_mem_segment ℝ _ _) hb.mem
    rcases hc2 with rfl | rfl
    · exact hne.1 hc
    · exact hne.2 hc

/-- Two elements of a proper interface, by their names. -/
theorem ProperInterface.meet' {s : State} (h : ProperInterface pos s) {k k' : List ℕ} (hk : k ∈ keys s) (hk' : k' ∈ keys s) (hne : k ≠ k')
    {x : ℝ × ℝ} (hx : x ∈ points pos k) (hx' : x ∈ points pos k') : ∃ v, v ∈ k ∧ v ∈ k' ∧ x = pos v := by
  obtain ⟨a, b, -, rfl⟩ := key_of_mem h.ok hk
  obtain ⟨c, d, -, rfl⟩ := key_of_mem h.ok hk'
  rw [points_key] at hx hx'
  obtain ⟨v, h1, h2, h3⟩ := h.meet a b c d (elem_iff.2 hk) (elem_iff.2 hk') hne x hx hx'
  exact ⟨v, mem_key.2 h1, mem_key.2 h2, h3⟩

theorem onInterface_iff {s : State} (h : Ok s) {v : ℕ} : OnInterface s v ↔ ∃ k ∈ keys s, v ∈ k := by
  constructor
  · rintro ⟨o, ho⟩
    exact ⟨_, elem_iff.1 ho, mem_key.2 (Or.inl rfl)⟩
  · rintro ⟨k, hk, hv⟩
    obtain ⟨a, b, -, rfl⟩ := key_of_mem h hk
    rcases mem_key.1 hv with rfl | rfl
    · exact onInterface_left (elem_iff.2 hk)
    · exact onInterface_right (elem_iff.2 hk)

/-- A proper interface, from elements by their names. -/
theorem proper_of {s : State} (ok : Ok s) (inj : ∀ k ∈ keys s, ∀ k' ∈ keys s, ∀ v ∈ k, ∀ w ∈ k', pos v = pos w → v = w)
    (meet : ∀ k ∈ keys s, ∀ k' ∈ keys s, k ≠ k' → ∀ x ∈ points pos k, x ∈ points pos k' → ∃ v, v ∈ k ∧ v ∈ k' ∧ x = pos v) :
    ProperInterface pos s := by
  refine ⟨ok, ?_, ?_⟩
  · intro v w hv hw e
    obtain ⟨k, hk, hvk⟩ := (onInterface_iff ok).1 hv
    obtain ⟨k', hk', hwk⟩ := (onInterface_iff ok).1 hw
    exact inj k hk k' hk' v hvk w hwk e
  · intro a b c d hab hcd hne x hx hx'
    obtain ⟨v, h1, h2, h3⟩ := meet (key a b) (elem_iff.1 hab) (key c d) (elem_iff.1 hcd) hne x (by rwa [points_key]) (by rwa [points_key])
    exact ⟨v, mem_key.1 h1, mem_key.1 h2, h3⟩

theorem proper_split {s s' : State} (h : ProperInterface pos s) (ok : Ok s') {v a b : ℕ} (hab : key a b ∈ keys s) (hb : Between pos v a b)
    (hs : ∀ k, k ∈ keys s' ↔ (k = key v a ∨ k = key v b) ∨ (k ∈ keys s ∧ k ≠ key a b)) : ProperInterface pos s' := by
  have habp := h.apart (elem_iff.2 hab)
  have hfree := fun x hx => h.free x a b hx (elem_iff.2 hab)
  have ia := onInterface_left (elem_iff.2 hab)
  have ib := onInterface_right (elem_iff.2 hab)
  -- a vertex is the new one or an old one
  have vert : ∀ k ∈ keys s', ∀ x ∈ k, x = v ∨ OnInterface s x := by
    intro k hk x hx
    rcases (hs k).1 hk with (rfl | rfl) | ⟨hk', -⟩
    · rcases mem_key.1 hx with rfl | rfl
      · exact Or.inl rfl
      · exact Or.inr ia
    · rcases mem_key.1 hx with rfl | rfl
      · exact Or.inl rfl
      · exact Or.inr ib
    · exact Or.inr ((onInterface_iff h.ok).2 ⟨k, hk', hx⟩)
  have sub : ∀ {x : ℝ × ℝ}, x ∈ points pos (key v a) ∨ x ∈ points pos (key v b) → x ∈ points pos (key a b) := fun {x} hx =>
    hb.points ▸ hx
  -- one part and an old element
  have part : ∀ a' b', (a' = a ∧ b' = b ∨ a' = b ∧ b' = a) → ∀ k ∈ keys s, k ≠ key a b → ∀ x ∈ points pos (key v a'), x ∈ points pos k →
      ∃ u, u ∈ key v a' ∧ u ∈ k ∧ x = pos u := by
    intro a' b' hor k hk hne x hx hx'
    have hx2 : x ∈ points pos (key a b) := by
      rcases hor with ⟨rfl, -⟩ | ⟨rfl, -⟩
      · exact sub (Or.inl hx)
      · exact sub (Or.inr hx)
    obtain ⟨u, hu1, hu2, rfl⟩ := h.meet' hab hk (Ne.symm hne) hx2 hx'
    refine ⟨u, mem_key.2 (Or.inr ?_), hu2, rfl⟩
    rw [points_key] at hx
    rcases mem_key.1 hu1 with rfl | rfl <;> rcases hor with ⟨rfl, rfl⟩ | ⟨rfl, rfl⟩
    · rfl
    · exact absurd hx (hb.symm.half habp.symm)
    · exact absurd hx (hb.half habp)
    · rfl
  refine proper_of ok ?_ ?_
  · intro k hk k' hk' x hx y hy e
    rcases vert k hk x hx with rfl | hx' <;> rcases vert k' hk' y hy with rfl | hy'
    · rfl
    · obtain ⟨w, w0, w1, ew⟩ := hb
      exact absurd ⟨w, w0, w1, e ▸ ew⟩ (hfree y hy')
    · obtain ⟨w, w0, w1, ew⟩ := hb
      exact absurd ⟨w, w0, w1, e ▸ ew⟩ (hfree x hx')
    · exact h.inj x y hx' hy' e
  · intro k hk k' hk' hne x hx hx'
    rcases (hs k).1 hk with (rfl | rfl) | ⟨hk1, hk2⟩ <;> rcases (hs k').1 hk' with (rfl | rfl) | ⟨hk1', hk2'⟩
    · exact absurd rfl hne
    · rw [points_key] at hx hx'
      exact ⟨v, mem_key.2 (Or.inl rfl), mem_key.2 (Or.inl rfl), hb.inter habp hx hx'⟩
    · exact part a b (Or.inl ⟨rfl, rfl⟩) k' hk1' hk2' x hx hx'
    · rw [points_key] at hx hx'
      exact ⟨v, mem_key.2 (Or.inl rfl), mem_key.2 (Or.inl rfl), hb.inter habp hx' hx⟩
    · exact absurd rfl hne
    · exact part b a (Or.inr ⟨rfl, rfl⟩) k' hk1' hk2' x hx hx'
    · obtain ⟨u, h1, h2, h3⟩ := part a b (Or.inl ⟨rfl, rfl⟩) k hk1 hk2 x hx' hx
      exact ⟨u, h2, h1, h3⟩
    · obtain ⟨u, h1, h2, h3⟩ := part b a (Or.inr ⟨rfl, rfl⟩) k hk1 hk2 x hx' hx
      exact ⟨u, h2, h1, h3⟩
    · exact h.meet' hk1 hk1' hne hx hx'

theorem proper_join {s s' : State} (h : ProperInterface pos s) (ok : Ok s') {v o o' : ℕ} (ho : key v o ∈ keys s) (ho' : key v o' ∈ keys s)
    (hinc : ∀ k ∈ keys s, v ∈ k → k = key v o ∨ k = key v o') (hb : Between pos v o o')
    (hs : ∀ k, k ∈ keys s' ↔ k = key o o' ∨ (k ∈ keys s ∧ k ≠ key v o ∧ k ≠ key v o')) : ProperInterface pos s' := by
  have vert : ∀ k ∈ keys s', ∀ x ∈ k, OnInterface s x := by
    intro k hk x hx
    rcases (hs k).1 hk with rfl | ⟨hk', -⟩
    · rcases mem_key.1 hx with rfl | rfl
      · exact onInterface_right (elem_iff.2 ho)
      · exact onInterface_right (elem_iff.2 ho')
    · exact (onInterface_iff h.ok).2 ⟨k, hk', hx⟩
  have new : ∀ k ∈ keys s, k ≠ key v o → k ≠ key v o' → ∀ x ∈ points pos (key o o'), x ∈ points pos k →
      ∃ u, u ∈ key o o' ∧ u ∈ k ∧ x = pos u := by
    intro k hk h1 h2 x hx hx'
    have hvk : v ∉ k := by
      intro hm
      rcases hinc k hk hm with e | e
      · exact h1 e
      · exact h2 e
    rw [← hb.points] at hx
    rcases hx with hx | hx
    · obtain ⟨u, hu1, hu2, rfl⟩ := h.meet' ho hk (Ne.symm h1) hx hx'
      rcases mem_key.1 hu1 with rfl | rfl
      · exact absurd hu2 hvk
      · exact ⟨u, mem_key.2 (Or.inl rfl), hu2, rfl⟩
    · obtain ⟨u, hu1, hu2, rfl⟩ := h.meet' ho' hk (Ne.symm h2) hx hx'
      rcases mem_key.1 hu1 with rfl | rfl
      · exact absurd hu2 hvk
      · exact ⟨u, mem_key.2 (Or.inr rfl), hu2, rfl⟩
  refine proper_of ok ?_ ?_
  · intro k hk k' hk' x hx y hy e
    exact h.inj x y (vert k hk x hx) (vert k' hk' y hy) e
  · intro k hk k' hk' hne x hx hx'
    rcases (hs k).1 hk with rfl | ⟨hk1, hk2, hk3⟩ <;> rcases (hs k').1 hk' with rfl | ⟨hk1', hk2', hk3'⟩
    · exact absurd rfl hne
    · exact new k' hk1' hk2' hk3' x hx hx'
    · obtain ⟨u, h1, h2, h3⟩ := new k hk1 hk2 hk3 x hx' hx
      exact ⟨u, h2, h1, h3⟩
    · exact h.meet' hk1 hk1' hne hx hx'

/-- An operation that changes neither the elements nor the map. -/
theorem good_same {t t' : IState ℝ} (h : Good ident pos s0 val t) (ok : Ok t'.s) (hs : t'.s.segs = t.s.segs) (hc : t'.comp = t.comp)
    (hn : t.s.next ≤ t'.s.next) (hf : t'.s.flag = t.s.flag) : Good ident pos s0 val t' := by
  have hk : keys t'.s = keys t.s := by unfold keys; rw [hs]
  have hp : ProperInterface pos t'.s := by
    refine ⟨ok, ?_, ?_⟩
    · intro v w hv hw
      refine h.proper.inj v w ?_ ?_
      · obtain ⟨o, ho⟩ := hv; exact ⟨o, elem_iff.2 (hk ▸ elem_iff.1 ho)⟩
      · obtain ⟨o, ho⟩ := hw; exact ⟨o, elem_iff.2 (hk ▸ elem_iff.1 ho)⟩
    · intro a b c d hab hcd
      exact h.proper.meet a b c d (elem_iff.2 (hk ▸ elem_iff.1 hab)) (elem_iff.2 (hk ▸ elem_iff.1 hcd))
  refine ⟨hp, h.next.trans hn, fun v hv => by rw [hf]; exact h.flag v hv, ?_, ?_, ?_, ?_⟩
  · intro k hkm
    rw [hk] at hkm
    exact origin_mono (by rw [hc]) (fun j _ hj => by rwa [hk]) (h.origin k hkm)
  · intro k hkm
    rw [hc] at hkm
    rw [hk]
    exact h.comp k hkm
  · rw [hk, hc]; exact h.sum
  · rw [hk]; exact h.shape

/-- Splitting an element that is as it was. -/
theorem good_split {t t' : IState ℝ} (h0 : Ok s0) (h : Good ident pos s0 val t) (ok : Ok t'.s) {v a b : ℕ} {g : Segment ℝ}
    (hn : s0.next ≤ t'.s.next) (hf : ∀ x, x < s0.next → t'.s.flag x = t.s.flag x)
    (hv : t.s.next ≤ v) (hab0 : key a b ∈ keys s0) (hab : key a b ∈ keys t.s) (hnone : Map.find t.comp (key a b) = none)
    (hb : Between pos v a b) (hg : Copy ident pos (key a b) g)
    (hs : ∀ k, k ∈ keys t'.s ↔ (k = key v a ∨ k = key v b) ∨ (k ∈ keys t.s ∧ k ≠ key a b))
    (hc : ∀ k, Map.find t'.comp k = if k = key v a ∨ k = key v b then some [g] else Map.find t.comp k) : Good ident pos s0 val t' := by
  obtain ⟨hne, ha, hb'⟩ := key_lt h.proper.ok hab
  have hfresh : ∀ k ∈ keys t.s, v ∉ k := by
    intro k hk hm
    obtain ⟨m, hm'⟩ := mem_keys.1 hk
    exact h.proper.ok.fresh hv _ (Map.mem_of_find hm') hm
  have hva : key v a ∉ keys t.s := fun hk => hfresh _ hk (mem_key.2 (Or.inl rfl))
  have hvb : key v b ∉ keys t.s := fun hk => hfresh _ hk (mem_key.2 (Or.inl rfl))
  have hvn : s0.next ≤ v := h.next.trans hv
  have habn : key a b ∉ keys t'.s := by
    rw [hs]
    rintro ((e | e) | ⟨-, e⟩)
    · exact hva (e ▸ hab)
    · exact hvb (e ▸ hab)
    · exact e rfl
  have hmono : ∀ j ∈ keys s0, j ∉ keys t.s → j ∉ keys t'.s := by
    intro j hj hjt
    rw [hs]
    rintro ((rfl | rfl) | ⟨e, -⟩)
    · have := key_lt h0 hj; omega
    · have := key_lt h0 hj; omega
    · exact hjt e
  have hvab : key v a ≠ key v b := by
    intro e
    have := key_eq_iff.1 e
    omega
  have hset : keys t'.s = insert (key v a) (insert (key v b) ((keys t.s).erase (key a b))) := by
    ext k
    rw [hs, Finset.mem_insert, Finset.mem_insert, Finset.mem_erase]
    tauto
  refine ⟨proper_split h.proper ok hab hb hs, hn, fun x hx => (hf x hx).trans (h.flag x hx), ?_, ?_, ?_, ?_⟩
  · intro k hk
    rcases (hs k).1 hk with (rfl | rfl) | ⟨hk', hne'⟩
    · exact Or.inr (Or.inl ⟨v, a, b, g, rfl, hvn, hab0, habn, hb, hg, by rw [hc, if_pos (Or.inl rfl)]⟩)
    · refine Or.inr (Or.inl ⟨v, b, a, g, rfl, hvn, ?_, ?_, hb.symm, ?_, by rw [hc, if_pos (Or.inr rfl)]⟩)
      · rw [key_comm]; exact hab0
      · rw [key_comm]; exact habn
      · rw [key_comm]; exact hg
    · refine origin_mono ?_ hmono (h.origin k hk')
      rw [hc, if_neg]
      rintro (rfl | rfl)
      · exact hva hk'
      · exact hvb hk'
  · intro k hk
    rw [hc] at hk
    rw [hs]
    by_cases hkk : k = key v a ∨ k = key v b
    · exact Or.inl hkk
    · rw [if_neg hkk] at hk
      refine Or.inr ⟨h.comp k hk, ?_⟩
      rintro rfl
      exact hk hnone
  · rw [hset, Finset.sum_insert, Finset.sum_insert, ← h.sum, ← Finset.add_sum_erase _ _ hab]
    · have e1 : expect ident pos val t'.comp (key v a) = val (ident (key a b)) := by
        rw [expect_one (g := g) (by rw [hc, if_pos (Or.inl rfl)]), hg.1]
      have e2 : expect ident pos val t'.comp (key v b) = val (ident (key a b)) := by
        rw [expect_one (g := g) (by rw [hc, if_pos (Or.inr rfl)]), hg.1]
      rw [e1, e2, expect_none hnone, ← hb.length, add_mul, add_assoc]
      congr 2
      refine Finset.sum_congr rfl fun k hk => ?_
      rw [expect_congr]
      rw [hc, if_neg]
      have hk' := (Finset.mem_erase.1 hk).2
      rintro (rfl | rfl)
      · exact hva hk'
      · exact hvb hk'
    · intro hk
      exact hvb (Finset.mem_erase.1 hk).2
    · intro hk
      rcases Finset.mem_insert.1 hk with e | e
      · exact hvab e
      · exact hva (Finset.mem_erase.1 e).2
  · intro x
    rw [← h.shape x]
    constructor
    · rintro ⟨k, hk, hx⟩
      rcases (hs k).1 hk with (rfl | rfl) | ⟨hk', -⟩
      · exact ⟨_, hab, hb.points ▸ Or.inl hx⟩
      · exact ⟨_, hab, hb.points ▸ Or.inr hx⟩
      · exact ⟨k, hk', hx⟩
    · rintro ⟨k, hk, hx⟩
      by_cases hkk : k = key a b
      · subst hkk
        rw [← hb.points] at hx
        rcases hx with hx | hx
        · exact ⟨_, (hs _).2 (Or.inl (Or.inl rfl)), hx⟩
        · exact ⟨_, (hs _).2 (Or.inl (Or.inr rfl)), hx⟩
      · exact ⟨k, (hs _).2 (Or.inr ⟨hk, hkk⟩), hx⟩

/-- Joining two elements that are as they were. -/
theorem good_join {t t' : IState ℝ} (h0 : ProperInterface pos s0) (h : Good ident pos s0 val t) (ok : Ok t'.s) {v o o' : ℕ} {g g' : Segment ℝ}
    (hn : s0.next ≤ t'.s.next) (hf : ∀ x, x < s0.next → t'.s.flag x = t.s.flag x) (hne : o ≠ o')
    (ho0 : key v o ∈ keys s0) (ho : key v o ∈ keys t.s) (hnone : Map.find t.comp (key v o) = none)
    (ho0' : key v o' ∈ keys s0) (ho' : key v o' ∈ keys t.s) (hnone' : Map.find t.comp (key v o') = none)
    (hinc : ∀ k ∈ keys t.s, v ∈ k → k = key v o ∨ k = key v o')
    (hb : Between pos v o o') (hg : Copy ident pos (key v o) g) (hg' : Copy ident pos (key v o') g')
    (hs : ∀ k, k ∈ keys t'.s ↔ k = key o o' ∨ (k ∈ keys t.s ∧ k ≠ key v o ∧ k ≠ key v o'))
    (hc : Map.find t.comp (key o o') = none → ∀ k, Map.find t'.comp k = if k = key o o' then some [g, g'] else Map.find t.comp k) :
    Good ident pos s0 val t' := by
  have l1 := key_lt h0.ok ho0
  have l2 := key_lt h0.ok ho0'
  have ei : ∀ {x y : ℕ}, key x y ∈ keys s0 → OnInterface s0 x := fun {x y} hxy => ⟨y, elem_iff.2 hxy⟩
  have iv : OnInterface s0 v := ei ho0
  have io : OnInterface s0 o := ei (by rw [key_comm]; exact ho0)
  have io' : OnInterface s0 o' := ei (by rw [key_comm]; exact ho0')
  have hoo0 : key o o' ∉ keys s0 := fun hk => h0.free v o o' iv (elem_iff.2 hk) hb
  -- the new element is not there yet
  have hoo : key o o' ∉ keys t.s := by
    intro hk
    rcases h.origin _ hk with ⟨-, h2⟩ | ⟨w, a, b, g1, h1, h2, -⟩ | ⟨w, p, p', g1, g2, h1, h2, h3, h4, h5, h6, -⟩
    · exact hoo0 h2
    · have := key_eq_iff.1 h1; omega
    · have hw : OnInterface s0 w := ei h2
      have hvw : v ≠ w := by
        rintro rfl
        rcases key_eq_iff.1 h1 with ⟨rfl, rfl⟩ | ⟨rfl, rfl⟩
        · exact h3 ho
        · exact h3 ho'
      have hbw : Between pos w o o' ∧ key w o ∈ keys s0 := by
        rcases key_eq_iff.1 h1 with ⟨rfl, rfl⟩ | ⟨rfl, rfl⟩
        · exact ⟨h6, h2⟩
        · exact ⟨h6.symm, h4⟩
      obtain ⟨hbw, hwo⟩ := hbw
      obtain ⟨x, x0, x1, ex⟩ := hb
      obtain ⟨y, y0, y1, ey⟩ := hbw
      have ex1 := congrArg Prod.fst ex
      have ex2 := congrArg Prod.snd ex
      have ey1 := congrArg Prod.fst ey
      have ey2 := congrArg Prod.snd ey
      simp only at ex1 ex2 ey1 ey2
      rcases lt_trichotomy x y with hxy | hxy | hxy
      · -- w lies between o and v
        refine h0.free w o v hw (elem_iff.2 (by rw [key_comm]; exact ho0)) ⟨(y - x) / (1 - x), div_pos (by linarith) (by linarith), ?_, ?_⟩
        · rw [div_lt_one (by linarith)]; linarith
        · have hx : (1 - x) ≠ 0 := by linarith
          ext
          · simp only; rw [ey1, ex1]; field_simp; ring
          · simp only; rw [ey2, ex2]; field_simp; ring
      · subst hxy
        exact hvw (h0.inj v w iv hw (ex.trans ey.symm))
      · refine h0.free v o w iv (elem_iff.2 (by rw [key_comm]; exact hwo)) ⟨(x - y) / (1 - y), div_pos (by linarith) (by linarith), ?_, ?_⟩
        · rw [div_lt_one (by linarith)]; linarith
        · have hx : (1 - y) ≠ 0 := by linarith
          ext
          · simp only; rw [ey1, ex1]; field_simp; ring
          · simp only; rw [ey2, ex2]; field_simp; ring
  have hcn : Map.find t.comp (key o o') = none := by
    by_contra hcc
    exact hoo (h.comp _ hcc)
  have hc := hc hcn
  have hmono : ∀ j ∈ keys s0, j ∉ keys t.s → j ∉ keys t'.s := by
    intro j hj hjt
    rw [hs]
    rintro (rfl | ⟨e, -⟩)
    · exact hoo0 hj
    · exact hjt e
  have hvo : key v o ∉ keys t'.s := by
    rw [hs]
    rintro (e | ⟨-, e, -⟩)
    · exact hoo (e ▸ ho)
    · exact e rfl
  have hvo' : key v o' ∉ keys t'.s := by
    rw [hs]
    rintro (e | ⟨-, -, e⟩)
    · exact hoo (e ▸ ho')
    · exact e rfl
  have hkk : key v o ≠ key v o' := by
    intro e
    have := key_eq_iff.1 e
    omega
  have hset : keys t'.s = insert (key o o') (((keys t.s).erase (key v o)).erase (key v o')) := by
    ext k
    rw [hs, Finset.mem_insert, Finset.mem_erase, Finset.mem_erase]
    tauto
  have hlen : len pos (key o o') ≠ 0 := (len_pos fun e => hne (h0.inj o o' io io' e)).ne'
  refine ⟨proper_join h.proper ok ho ho' hinc hb hs, hn, fun x hx => (hf x hx).trans (h.flag x hx), ?_, ?_, ?_, ?_⟩
  · intro k hk
    rcases (hs k).1 hk with rfl | ⟨hk', -⟩
    · exact Or.inr (Or.inr ⟨v, o, o', g, g', rfl, ho0, hvo, ho0', hvo', hb, hg, hg', by rw [hc, if_pos rfl]⟩)
    · refine origin_mono ?_ hmono (h.origin k hk')
      rw [hc, if_neg]
      rintro rfl
      exact hoo hk'
  · intro k hk
    rw [hc] at hk
    rw [hs]
    by_cases e : k = key o o'
    · exact Or.inl e
    · rw [if_neg e] at hk
      refine Or.inr ⟨h.comp k hk, ?_, ?_⟩
      · rintro rfl; exact hk hnone
      · rintro rfl; exact hk hnone'
  · have ho'' : key v o' ∈ (keys t.s).erase (key v o) := Finset.mem_erase.2 ⟨hkk.symm, ho'⟩
    rw [hset, Finset.sum_insert, ← h.sum, ← Finset.add_sum_erase _ _ ho, ← Finset.add_sum_erase _ _ ho'']
    · have e1 : len pos (key o o') * expect ident pos val t'.comp (key o o') =
          len pos (key v o) * val (ident (key v o)) + len pos (key v o') * val (ident (key v o')) := by
        rw [expect_two (g := g) (g' := g') (by rw [hc, if_pos rfl]), copy_length hg, copy_length hg', hg.1, hg'.1, mul_div_cancel₀ _ hlen]
      rw [e1, expect_none hnone, expect_none hnone', add_assoc]
      congr 2
      refine Finset.sum_congr rfl fun k hk => ?_
      rw [expect_congr]
      rw [hc, if_neg]
      rintro rfl
      exact hoo (Finset.mem_erase.1 (Finset.mem_erase.1 hk).2).2
    · intro hk
      exact hoo (Finset.mem_erase.1 (Finset.mem_erase.1 hk).2).2
  · intro x
    rw [← h.shape x]
    constructor
    · rintro ⟨k, hk, hx⟩
      rcases (hs k).1 hk with rfl | ⟨hk', -⟩
      · rw [← hb.points] at hx
        rcases hx with hx | hx
        · exact ⟨_, ho, hx⟩
        · exact ⟨_, ho', hx⟩
      · exact ⟨k, hk', hx⟩
    · rintro ⟨k, hk, hx⟩
      by_cases e1 : k = key v o
      · exact ⟨key o o', (hs _).2 (Or.inl rfl), hb.points ▸ Or.inl (e1 ▸ hx)⟩
      · by_cases e2 : k = key v o'
        · exact ⟨key o o', (hs _).2 (Or.inl rfl), hb.points ▸ Or.inr (e2 ▸ hx)⟩
        · exact ⟨k, (hs _).2 (Or.inr ⟨hk, e1, e2⟩), hx⟩

end Verif.InterfaceTransfer
