import Verif.Implicit.Structured
import Verif.Implicit.Props
import Mathlib.Algebra.Order.Ring.Rat
import Mathlib.Algebra.Field.Rat
import Mathlib.Algebra.BigOperators.Group.List.Basic
import Mathlib.Tactic.Ring
import Mathlib.Tactic.FieldSimp
import Mathlib.Tactic.Linarith

/-!
# C87: structured grids
-/

namespace Verif.Implicit

set_option linter.unusedSectionVars false

variable {K : Type} [Field K] [LinearOrder K] [IsStrictOrderedRing K]

/-! ## Specification -/

/-- The box with corners `ll` and `ur` and `n` elements in each direction. -/
inductive Box : List K → List K → List Nat → Prop
  | nil : Box [] [] []
  | cons {l u : K} {n : Nat} {ll ur : List K} {ns : List Nat} : l < u → 0 < n → Box ll ur ns → Box (l :: ll) (u :: ur) (n :: ns)

/-- `p` is the lattice point with the numbers `is`: coordinate `j` divides the side `j` of the box in the ratio `is j : n j - is j`. -/
inductive Lattice : List K → List K → List Nat → List Nat → List K → Prop
  | nil : Lattice [] [] [] [] []
  | cons {l u x : K} {n i : Nat} {ll ur p : List K} {ns is : List Nat} : i ≤ n → (x - l) * (n : K) = (u - l) * (i : K) → Lattice ll ur ns is p →
      Lattice (l :: ll) (u :: ur) (n :: ns) (i :: is) (x :: p)

/-- The lexicographic number of a multi-index, first entry fastest, with `l` values for each entry (see `number_2d`, `number_3d`). -/
def number : List Nat → List Nat → Nat
  | l :: ls, i :: is => i + l * number ls is
  | _, _ => 0

/-! ## Proofs: the multi-index counts in mixed radix -/

/-- The entries are below the limits. -/
inductive Below : List Nat → List Nat → Prop
  | nil : Below [] []
  | cons {l i : Nat} {ls is : List Nat} : i < l → Below ls is → Below (l :: ls) (i :: is)

theorem foldl_mul (l : List Nat) (a : Nat) : l.foldl (· * ·) a = a * l.prod := by
  induction l generalizing a with
  | nil => simp
  | cons b l ih => rw [List.foldl_cons, ih, List.prod_cons, Nat.mul_assoc]

theorem cycle_eq (l : List Nat) : cycle l = l.prod := by unfold cycle; rw [foldl_mul, Nat.one_mul]

theorem number_lt {ls is : List Nat} (h : Below ls is) : number ls is < ls.prod := by
  induction h with
  | nil => simp [number]
  | @cons l i ls is hi _ ih =>
    rw [List.prod_cons]
    simp only [number]
    calc i + l * number ls is < l + l * number ls is := by omega
      _ = l * (number ls is + 1) := by ring
      _ ≤ l * ls.prod := Nat.mul_le_mul_left _ ih

theorem number_inj {ls is js : List Nat} (h : Below ls is) (h' : Below ls js) (e : number ls is = number ls js) : is = js := by
  induction h generalizing js with
  | nil => cases h'; rfl
  | @cons l i ls is hi _ ih =>
    cases h' with
    | @cons _ j _ js hj hjs =>
      simp only [number] at e
      have hl : 0 < l := by omega
      have h1 : i = j := by
        have := congrArg (· % l) e
        simpa [Nat.add_mul_mod_self_left, Nat.mod_eq_of_lt hi, Nat.mod_eq_of_lt hj] using this
      subst h1
      have h2 : number ls is = number ls js := Nat.eq_of_mul_eq_mul_left hl (by omega)
      rw [ih hjs h2]

theorem increment_below {ls is : List Nat} (h : Below ls is) : Below ls (increment ls is) := by
  induction h with
  | nil => exact .nil
  | @cons l i ls is hi hb ih =>
    unfold increment
    split
    · exact .cons (by assumption) hb
    · exact .cons (by omega) ih

theorem increment_number {ls is : List Nat} (h : Below ls is) (hlt : number ls is + 1 < ls.prod) : number ls (increment ls is) = number ls is + 1 := by
  induction h with
  | nil => simp [number] at hlt
  | @cons l i ls is hi hb ih =>
    unfold increment
    split
    · simp only [number]; omega
    · have hil : i + 1 = l := by omega
      simp only [number, List.prod_cons] at hlt ⊢
      have h1 : number ls is + 1 < ls.prod := by
        have e : i + l * number ls is + 1 = l * (number ls is + 1) := by rw [← hil]; ring
        rw [e] at hlt
        exact Nat.lt_of_mul_lt_mul_left hlt
      rw [ih h1, ← hil]
      ring

theorem zeros_below {ls : List Nat} (h : ∀ l ∈ ls, 0 < l) : Below ls (ls.map fun _ => 0) := by
  induction ls with
  | nil => exact .nil
  | cons l ls ih => exact .cons (h l (by simp)) (ih fun x hx => h x (by simp [hx]))

theorem zeros_number (ls : List Nat) : number ls (ls.map fun _ => 0) = 0 := by
  induction ls with
  | nil => rfl
  | cons l ls ih => rw [List.map_cons]; simp only [number]; rw [ih, Nat.mul_zero]

/-- The index in pass `i`. -/
def indexAt (vertices : List Nat) : Nat → List Nat → List Nat
  | 0, idx => idx
  | i + 1, idx => indexAt vertices i (increment vertices idx)

theorem indexAt_number {ls : List Nat} : ∀ (i : Nat) (idx : List Nat), Below ls idx → number ls idx + i < ls.prod →
    Below ls (indexAt ls i idx) ∧ number ls (indexAt ls i idx) = number ls idx + i := by
  intro i
  induction i with
  | zero => intro idx h _; exact ⟨h, rfl⟩
  | succ i ih =>
    intro idx h hlt
    have e := increment_number h (by omega)
    obtain ⟨h1, h2⟩ := ih (increment ls idx) (increment_below h) (by rw [e]; omega)
    exact ⟨h1, by unfold indexAt; rw [h2, e]; omega⟩

theorem loop_positions (ll ur : List K) (ns vs : List Nat) : ∀ (m : Nat) (idx : List Nat) (i : Nat), i < m →
    (positions (vertexLoop ll ur ns vs m idx))[i]? = some (position ll ur ns (indexAt vs i idx)) := by
  intro m
  induction m with
  | zero => intro idx i h; omega
  | succ m ih =>
    intro idx i h
    cases i with
    | zero => rfl
    | succ i =>
      simp only [vertexLoop, positions, List.getElem?_cons_succ, indexAt]
      exact ih _ i (by omega)

theorem loop_length (ll ur : List K) (ns vs : List Nat) : ∀ (m : Nat) (idx : List Nat), (positions (vertexLoop ll ur ns vs m idx)).length = m := by
  intro m
  induction m with
  | zero => intro idx; rfl
  | succ m ih => intro idx; simp [vertexLoop, positions, ih]

theorem position_lattice {ll ur : List K} {ns is : List Nat} (hb : Box ll ur ns) (hi : Below (ns.map (· + 1)) is) :
    Lattice ll ur ns is (position ll ur ns is) := by
  induction hb generalizing is with
  | nil => cases hi; exact .nil
  | @cons l u n ll ur ns hlu hn _ ih =>
    cases hi with
    | @cons _ i _ is hin hisb =>
      have hnK : ((n : Nat) : K) ≠ 0 := by exact_mod_cast hn.ne'
      refine .cons (Nat.lt_succ_iff.1 hin) ?_ (ih hisb)
      simp only [Nat.add_sub_cancel]
      field_simp
      ring

theorem lattice_inj {ll ur : List K} {ns is js : List Nat} {p : List K} (hb : Box ll ur ns) (h : Lattice ll ur ns is p) (h' : Lattice ll ur ns js p) : is = js := by
  induction hb generalizing is js p with
  | nil => cases h; cases h'; rfl
  | @cons l u n ll ur ns hlu hn _ ih =>
    cases h with
    | cons hi he ht =>
      cases h' with
      | cons hj he' ht' =>
        rw [ih ht ht']
        have := he.symm.trans he'
        have hne : u - l ≠ 0 := sub_ne_zero.2 hlu.ne'
        have := mul_left_cancel₀ hne this
        rw [Nat.cast_injective this]

theorem lattice_unique {ll ur : List K} {ns is : List Nat} {p q : List K} (hb : Box ll ur ns) (h : Lattice ll ur ns is p) (h' : Lattice ll ur ns is q) : p = q := by
  induction hb generalizing is p q with
  | nil => cases h; cases h'; rfl
  | @cons l u n ll ur ns hlu hn _ ih =>
    cases h with
    | @cons _ _ x _ _ _ _ _ _ _ hi he ht =>
      cases h' with
      | @cons _ _ y _ _ _ _ _ _ _ hj he' ht' =>
        rw [ih ht ht']
        have hnK : ((n : Nat) : K) ≠ 0 := by exact_mod_cast hn.ne'
        have := mul_right_cancel₀ hnK (he.trans he'.symm)
        rw [sub_left_inj.1 this]

theorem lattice_below {ll ur : List K} {ns is : List Nat} {p : List K} (h : Lattice ll ur ns is p) : Below (ns.map (· + 1)) is := by
  induction h with
  | nil => exact .nil
  | cons hi _ _ ih => exact .cons (Nat.lt_succ_iff.2 hi) ih

theorem run_vertices (ll ur : List K) (ns vs : List Nat) : ∀ (m : Nat) (idx : List Nat) (s : State (List K)), ∃ s', run s (vertexLoop ll ur ns vs m idx) = some s' := by
  intro m
  induction m with
  | zero => intro idx s; exact ⟨s, rfl⟩
  | succ m ih => intro idx s; exact ih _ _

/-- Position number `i` is the lattice point whose multi-index has number `i`. -/
theorem positions_structured {ll ur : List K} {ns : List Nat} (hb : Box ll ur ns) (i : Nat) (hi : i < (ns.map (· + 1)).prod) :
    ∃ is p, (positions (structuredCalls ll ur ns))[i]? = some p ∧ Lattice ll ur ns is p ∧ number (ns.map (· + 1)) is = i := by
  have hz := zeros_below (ls := ns.map (· + 1)) (by simp)
  obtain ⟨h1, h2⟩ := indexAt_number i _ hz (by rw [zeros_number]; omega)
  rw [zeros_number, Nat.zero_add] at h2
  refine ⟨_, _, ?_, position_lattice hb h1, h2⟩
  unfold structuredCalls
  exact loop_positions ll ur ns _ _ _ i (by rw [cycle_eq]; exact hi)

theorem positions_length (ll ur : List K) (ns : List Nat) : (positions (structuredCalls ll ur ns)).length = (ns.map (· + 1)).prod := by
  unfold structuredCalls
  rw [loop_length, cycle_eq]

theorem positions_nodup {ll ur : List K} {ns : List Nat} (hb : Box ll ur ns) : (positions (structuredCalls ll ur ns)).Nodup := by
  rw [List.nodup_iff_injective_get]
  intro a b hab
  have ha := lt_of_lt_of_eq a.2 (positions_length ll ur ns)
  have hb' := lt_of_lt_of_eq b.2 (positions_length ll ur ns)
  obtain ⟨is, p, h1, h2, h3⟩ := positions_structured hb a.1 ha
  obtain ⟨js, q, h4, h5, h6⟩ := positions_structured hb b.1 hb'
  have e1 := (List.getElem?_eq_some_iff.1 h1).2
  have e2 := (List.getElem?_eq_some_iff.1 h4).2
  have hpq : p = q := by rw [← e1, ← e2]; simpa using hab
  subst hpq
  have := lattice_inj hb h2 h5
  subst this
  exact Fin.ext (h3.symm.trans h6)

/-! ## C87 -/

/-- C87: the vertices of a structured grid are exactly the lattice points of the box, each once; their number is the product of the numbers of elements plus
one. -/
theorem C87_vertices (ll ur : List K) (ns : List Nat) (hb : Box ll ur ns) : ∃ s, run {} (structuredCalls ll ur ns) = some s ∧
    (s.verts.map (·.point)).Nodup ∧ s.verts.length = (ns.map (· + 1)).prod ∧ ∀ p, p ∈ s.verts.map (·.point) ↔ ∃ is, Lattice ll ur ns is p := by
  obtain ⟨s, hs⟩ : ∃ s, run {} (structuredCalls ll ur ns) = some s := run_vertices ll ur ns _ _ _ _
  obtain ⟨h1, h2⟩ := C86_vertices _ s hs
  refine ⟨s, hs, h1, ?_, fun p => ?_⟩
  · have hp : (s.verts.map (·.point)).Perm (positions (structuredCalls ll ur ns)) := (List.perm_ext_iff_of_nodup h1 (positions_nodup hb)).2 h2
    have := hp.length_eq
    rw [List.length_map, positions_length] at this
    exact this
  · rw [h2]
    constructor
    · intro hp
      obtain ⟨i, hi⟩ := List.getElem?_of_mem hp
      have hlt := (List.getElem?_eq_some_iff.1 hi).1
      rw [positions_length] at hlt
      obtain ⟨is, q, h3, h4, -⟩ := positions_structured hb i hlt
      rw [hi] at h3
      cases h3
      exact ⟨is, h4⟩
    · rintro ⟨is, hl⟩
      have hbl := lattice_below hl
      obtain ⟨js, q, h3, h4, h5⟩ := positions_structured hb (number (ns.map (· + 1)) is) (number_lt hbl)
      have := number_inj (lattice_below h4) hbl h5
      subst this
      rw [lattice_unique hb hl h4]
      exact List.mem_of_getElem? h3

/-- C87: the vertices are numbered lexicographically, the first coordinate runs fastest: the lattice point with numbers (i, j, k) has insertion index
i + (n + 1) (j + (m + 1) k). -/
theorem C87_numbering (ll ur : List K) (ns : List Nat) (hb : Box ll ur ns) (is : List Nat) (p : List K) (hl : Lattice ll ur ns is p) :
    ∃ s k v, run {} (structuredCalls ll ur ns) = some s ∧ s.verts[k]? = some v ∧ v.point = p ∧ insertionIndex s k = some (number (ns.map (· + 1)) is) := by
  obtain ⟨s, hs⟩ : ∃ s, run {} (structuredCalls ll ur ns) = some s := run_vertices ll ur ns _ _ _ _
  obtain ⟨js, q, h3, h4, h5⟩ := positions_structured hb _ (number_lt (lattice_below hl))
  have := number_inj (lattice_below h4) (lattice_below hl) h5
  subst this
  rw [lattice_unique hb h4 hl] at h3
  obtain ⟨k, v, h6, h7, h8⟩ := C86_index _ s hs (positions_nodup hb) _ p h3
  exact ⟨s, k, v, hs, h6, h7, h8⟩

/-- The numbers of a lattice point in 2d. -/
theorem number_2d (n m i j : Nat) : number [n + 1, m + 1] [i, j] = i + (n + 1) * j := by simp [number]

/-- The numbers of a lattice point in 3d. -/
theorem number_3d (n m l i j k : Nat) : number [n + 1, m + 1, l + 1] [i, j, k] = i + (n + 1) * (j + (m + 1) * k) := by simp [number]

/-- Both corners of the box are lattice points, and all lattice points lie in the box. -/
theorem lattice_corners (ll ur : List K) (ns : List Nat) (hb : Box ll ur ns) : (∃ is, Lattice ll ur ns is ll) ∧ (∃ is, Lattice ll ur ns is ur) ∧
    ∀ is p, Lattice ll ur ns is p → List.Forall₂ (· ≤ ·) ll p ∧ List.Forall₂ (· ≤ ·) p ur := by
  refine ⟨?_, ?_, ?_⟩
  · induction hb with
    | nil => exact ⟨[], .nil⟩
    | @cons l u n ll ur ns hlu hn _ ih =>
      obtain ⟨is, h⟩ := ih
      exact ⟨0 :: is, .cons (by omega) (by simp) h⟩
  · induction hb with
    | nil => exact ⟨[], .nil⟩
    | @cons l u n ll ur ns hlu hn _ ih =>
      obtain ⟨is, h⟩ := ih
      exact ⟨n :: is, .cons le_rfl rfl h⟩
  · intro is p h
    induction hb generalizing is p with
    | nil => cases h; exact ⟨.nil, .nil⟩
    | @cons l u n ll ur ns hlu hn _ ih =>
      cases h with
      | @cons _ _ x _ i _ _ _ _ _ hi he ht =>
        obtain ⟨h1, h2⟩ := ih _ _ ht
        have hnK : (0 : K) < (n : K) := by exact_mod_cast hn
        have hiK : (0 : K) ≤ (i : K) := Nat.cast_nonneg i
        have hinK : (i : K) ≤ (n : K) := by exact_mod_cast hi
        have hd : 0 < u - l := sub_pos.2 hlu
        constructor
        · refine .cons ?_ h1
          have : 0 ≤ (x - l) * (n : K) := by rw [he]; exact mul_nonneg hd.le hiK
          have := nonneg_of_mul_nonneg_left this hnK
          linarith
        · refine .cons ?_ h2
          have : (x - l) * (n : K) ≤ (u - l) * (n : K) := by rw [he]; exact mul_le_mul_of_nonneg_left hinK hd.le
          have := le_of_mul_le_mul_right this hnK
          linarith

/-- C87: both corners of the box are vertices of the grid, and all vertices lie in the box. -/
theorem C87_corners (ll ur : List K) (ns : List Nat) (hb : Box ll ur ns) : ∃ s, run {} (structuredCalls ll ur ns) = some s ∧
    (∃ v ∈ s.verts, v.point = ll) ∧ (∃ v ∈ s.verts, v.point = ur) ∧ ∀ v ∈ s.verts, List.Forall₂ (· ≤ ·) ll v.point ∧ List.Forall₂ (· ≤ ·) v.point ur := by
  obtain ⟨s, hs, -, -, h⟩ := C87_vertices ll ur ns hb
  obtain ⟨h1, h2, h3⟩ := lattice_corners ll ur ns hb
  refine ⟨s, hs, List.mem_map.1 ((h ll).2 h1), List.mem_map.1 ((h ur).2 h2), fun v hv => ?_⟩
  obtain ⟨is, hl⟩ := (h v.point).1 (List.mem_map.2 ⟨v, hv, rfl⟩)
  exact h3 is v.point hl

/-- The hypotheses hold for the box (0,1)×(-1,3) with 2×4 elements; its vertex (1,1) has the insertion index 2 + 3·2. -/
example : Box [(0 : ℚ), -1] [1, 3] [2, 4] ∧ Lattice [(0 : ℚ), -1] [1, 3] [2, 4] [2, 2] [1, 1] ∧ number [3, 5] [2, 2] = 8 := by
  refine ⟨.cons (by norm_num) (by norm_num) (.cons (by norm_num) (by norm_num) .nil), .cons (by norm_num) (by norm_num) (.cons (by norm_num) (by norm_num) .nil), by decide⟩

end Verif.Implicit
