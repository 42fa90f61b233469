import Verif.PartIter.Model
import Verif.Ranks.Props
import Verif.Parallel.Props
import Verif.InterfaceIter.Props

/-!
# C159 to C162: iteration over partitions
-/

namespace Verif.PartIter

open Verif Tri Factory Ranks Parallel

/-! ## Specification -/

/-- The entities of a partition, as documented in dune-grid (gridenums.hh). -/
def Wanted : PIType → PType → Prop
  | .interior, t => t = .interior
  | .interiorBorder, t => t = .interior ∨ t = .border
  | .overlap, t => t = .interior ∨ t = .border ∨ t = .overlap
  | .overlapFront, t => t ≠ .ghost
  | .all, _ => True
  | .ghost, t => t = .ghost

/-- A process has a ghost copy of an element: it does not own the element, but it owns a neighbour, or an interface element that meets one of the sides of which is the element. -/
def IsGhost (m : Mesh) (me c : Nat) : Prop := m.rank c ≠ me ∧ ((∃ d, m.Adj c d ∧ m.rank d = me) ∨
  ∃ e ∈ m.ielems, m.rank (m.ins e) ≠ me ∧ m.Meets e me ∧ (m.ins e = c ∨ m.out e = some c))

/-- A process has a ghost copy of an interface element. -/
def IsInterfaceGhost (m : Mesh) (me e : Nat) : Prop := m.rank (m.ins e) ≠ me ∧ (m.Across e me ∨ m.Meets e me)

/-! ## Lemmas -/

theorem contains_iff (pi : PIType) {p : Int} (hp : p = 0 ∨ p = 1 ∨ p = 2) : contains pi p = true ↔ Wanted pi (partitionType p) := by
  rcases hp with rfl | rfl | rfl <;> cases pi <;> simp [contains, partitionType, Wanted]

theorem contains_absent (pi : PIType) : contains pi (-1) = false := by simp [contains]

/-- Only the elements of a range contribute. -/
theorem filter_range {α β : Type} (L : List α) (f : α → List β) (P : β → Bool) {b e : Nat} (hbe : b ≤ e) (he : e ≤ L.length)
    (h : ∀ k a, L[k]? = some a → k < b ∨ e ≤ k → ∀ x ∈ f a, P x = false) :
    (((L.drop b).take (e - b)).flatMap f).filter P = (L.flatMap f).filter P := by
  have hL : L = L.take b ++ ((L.drop b).take (e - b) ++ L.drop e) := by
    conv_lhs => rw [← List.take_append_drop b L, ← List.take_append_drop (e - b) (L.drop b), List.drop_drop]
    rw [show b + (e - b) = e by omega]
  conv_rhs => rw [hL]
  rw [List.flatMap_append, List.flatMap_append, List.filter_append, List.filter_append]
  have h1 : ((L.take b).flatMap f).filter P = [] := by
    rw [List.filter_eq_nil_iff]
    intro x hx
    obtain ⟨a, ha, hxa⟩ := List.mem_flatMap.1 hx
    obtain ⟨k, hk⟩ := List.getElem?_of_mem ha
    have hkb : k < b := by
      have := (List.getElem?_eq_some_iff.1 hk).1
      rw [List.length_take] at this
      omega
    rw [List.getElem?_take_of_lt hkb] at hk
    rw [h k a hk (Or.inl hkb) x hxa]
    simp
  have h2 : ((L.drop e).flatMap f).filter P = [] := by
    rw [List.filter_eq_nil_iff]
    intro x hx
    obtain ⟨a, ha, hxa⟩ := List.mem_flatMap.1 hx
    obtain ⟨k, hk⟩ := List.getElem?_of_mem ha
    rw [List.getElem?_drop] at hk
    rw [h (e + k) a hk (Or.inr (by omega)) x hxa]
    simp
  rw [h1, h2, List.nil_append, List.append_nil]

/-- The range of the interior iterators contains the elements of the process. -/
theorem range_spec {size dim n inf me : Nat} (hs : 1 < size) (hw : divisor dim n inf * size < word) (hme : me < size) {rank : Nat → Nat}
    (h : IsRank size (divisor dim n inf) n rank) (pi : PIType) :
    (range size (divisor dim n inf) n me pi).1 ≤ (range size (divisor dim n inf) n me pi).2 ∧ (range size (divisor dim n inf) n me pi).2 ≤ n ∧
      ∀ k < n, rank k = me ∨ pi ≠ .interior → (range size (divisor dim n inf) n me pi).1 ≤ k ∧ k < (range size (divisor dim n inf) n me pi).2 := by
  unfold range
  split
  · rename_i hpi
    have hn := le_divisor dim n inf
    generalize divisor dim n inf = N at *
    rcases Nat.eq_zero_or_pos n with rfl | hn0
    · unfold distribute
      simp
    · have hN : 0 < N := by omega
      obtain ⟨h1, h2, h3⟩ := iterators hs hw hme hN hn n (le_refl _)
      have hd : distribute size N n me = (List.range n).foldl (turn size N me) ⟨0, n, []⟩ := by
        unfold distribute
        rw [if_neg (by omega)]
      rw [← hd] at h1 h2 h3
      have hmono : first size N me ≤ first size N (me + 1) := first_mono (by omega)
      refine ⟨by simp only; omega, h3, fun k hk hr => ?_⟩
      have hr : rank k = me := by
        rcases hr with hr | hr
        · exact hr
        · exact absurd hpi hr
      have : first size N me ≤ k ∧ k < first size N (me + 1) := by
        rw [isRank_unique hs hw hn h k hk] at hr
        rw [← not_le, ← le_rank_iff (by omega) hN, ← le_rank_iff (by omega) hN]
        omega
      simp only
      omega
  · exact ⟨Nat.zero_le _, le_refl _, fun k hk _ => ⟨Nat.zero_le _, hk⟩⟩

theorem part_cases {m : Mesh} (hm : m.WF) (me c : Nat) :
    ((compute m me).part c = 0 ∧ m.rank c = me) ∨ ((compute m me).part c = 2 ∧ IsGhost m me c) ∨
      ((compute m me).part c = -1 ∧ m.rank c ≠ me ∧ ¬ IsGhost m me c) := by
  by_cases h : m.rank c = me
  · exact Or.inl ⟨(C35_interior hm me c).2 h, h⟩
  · right
    rcases compute_other hm h with h2 | h2
    · exact Or.inl ⟨h2, (C35_ghost hm me c).1 h2⟩
    · refine Or.inr ⟨h2, h, fun hg => ?_⟩
      have := (C35_ghost hm me c).2 hg
      omega

theorem ipart_cases {m : Mesh} (hm : m.WF) (me : Nat) {e : Nat} (he : e ∈ m.ielems) :
    ((compute m me).ipart e = 0 ∧ m.rank (m.ins e) = me) ∨ ((compute m me).ipart e = 2 ∧ IsInterfaceGhost m me e) ∨
      ((compute m me).ipart e = -1 ∧ m.rank (m.ins e) ≠ me ∧ ¬ IsInterfaceGhost m me e) := by
  by_cases h : m.rank (m.ins e) = me
  · exact Or.inl ⟨(C35_interface_interior hm me he).2 h, h⟩
  · right
    have h1 : (compute m me).ipart e = 2 ∨ (compute m me).ipart e = -1 := by
      rw [(c_inv hm me).rest.2.2]
      exact (g_inv hm me).iother e he h
    rcases h1 with h2 | h2
    · exact Or.inl ⟨h2, (C35_interface_ghost hm me he).1 h2⟩
    · refine Or.inr ⟨h2, h, fun hg => ?_⟩
      have := (C35_interface_ghost hm me he).2 hg
      omega

/-! ## C159 -/

/-- **C159** On every process, iterating over the elements of a partition visits exactly those elements that are interior (owned) or ghosts there and belong to the partition, each once
and in the order of the grid. -/
theorem C159_elements {size dim n inf me : Nat} (hs : 1 < size) (hw : divisor dim n inf * size < word) (hme : me < size) {m : Mesh} (hm : m.WF)
    (h : IsRank size (divisor dim n inf) n m.rank) (pi : PIType) :
    ∃ l, elements size (divisor dim n inf) n me (compute m me).part pi = some l ∧ l.Pairwise (· < ·) ∧
      ∀ c, c ∈ l ↔ c < n ∧ ((m.rank c = me ∧ Wanted pi .interior) ∨ (IsGhost m me c ∧ Wanted pi .ghost)) := by
  obtain ⟨h1, h2, h3⟩ := range_spec hs hw hme h pi
  unfold elements
  simp only
  generalize range size (divisor dim n inf) n me pi = r at *
  rw [if_pos h1, Iterate.rangeFor_eq_filter]
  refine ⟨_, rfl, ?_, fun c => ?_⟩
  · exact (List.pairwise_lt_range' (step := 1) (by omega)).filter _
  · rw [List.mem_filter, List.mem_range'_1]
    rcases part_cases hm me c with ⟨hp, hr⟩ | ⟨hp, hg⟩ | ⟨hp, hr, hg⟩
    · rw [hp, contains_iff pi (Or.inl rfl)]
      have : ¬ IsGhost m me c := fun hg => hg.1 hr
      simp only [this, false_and, or_false, hr, true_and]
      constructor
      · rintro ⟨hc, hW⟩
        exact ⟨by omega, hW⟩
      · rintro ⟨hc, hW⟩
        have := h3 c hc (Or.inl hr)
        exact ⟨by omega, hW⟩
    · rw [hp, contains_iff pi (Or.inr (Or.inr rfl))]
      have : m.rank c ≠ me := hg.1
      simp only [this, false_and, false_or, hg, true_and]
      constructor
      · rintro ⟨hc, hW⟩
        exact ⟨by omega, hW⟩
      · rintro ⟨hc, hW⟩
        have := h3 c hc (Or.inr (by rintro rfl; exact absurd hW (by simp [Wanted])))
        exact ⟨by omega, hW⟩
    · rw [hp, contains_absent]
      simp [hr, hg]

/-- **C159** Each element is visited by the iteration over interior elements on exactly one process. -/
theorem C159_owner {size dim n inf : Nat} (hs : 1 < size) (hw : divisor dim n inf * size < word) {m : Mesh} (hm : m.WF)
    (h : IsRank size (divisor dim n inf) n m.rank) {c : Nat} (hc : c < n) :
    ∃ me < size, ∀ p < size, (∃ l, elements size (divisor dim n inf) n p (compute m p).part .interior = some l ∧ c ∈ l) ↔ p = me := by
  refine ⟨m.rank c, ?_, fun p hp => ?_⟩
  · obtain ⟨rank, hr, hlt⟩ := C34_owner (dim := dim) (n := n) (inf := inf) hs hw
    have e1 := isRank_unique hs hw (le_divisor dim n inf) h c hc
    have e2 := isRank_unique hs hw (le_divisor dim n inf) hr c hc
    rw [e1, ← e2]
    exact hlt c hc
  · obtain ⟨l, hl, -, hmem⟩ := C159_elements hs hw hp hm h .interior
    rw [hl]
    simp only [Option.some.injEq, exists_eq_left', hmem, Wanted, and_true, reduceCtorEq, and_false, or_false]
    exact ⟨fun h => h.2.symm, fun h => ⟨hc, h.symm⟩⟩

/-- **C159** With one process every iteration visits all elements, except the one over ghosts, which visits none. -/
theorem C159_serial (N n : Nat) (pi : PIType) : elements 1 N n 0 (fun _ => 0) pi = some (if pi = .ghost then [] else List.range n) := by
  have hr : range 1 N n 0 pi = (0, n) := by
    unfold range distribute
    split <;> rfl
  unfold elements
  simp only [hr, Iterate.rangeFor_eq_filter, Nat.zero_le, if_true, Nat.sub_zero, ← List.range_eq_range']
  cases pi <;> simp [contains]

/-- The numbers of the interface elements: `num F` is the number in `m` of the interface element with vertices `F`; its inside is the cell at which the iterator stops. -/
structure Describes {d : Nat} (g : InterfaceIter.Grid d) (m : Mesh) (num : Finset (Option Nat) → Nat) : Prop where
  elem : ∀ p, InterfaceIter.keep g p = true → num (g.tri.facet p.1 p.2) ∈ m.ielems
  ins : ∀ p, p.1 ∈ g.tri.finiteCells → InterfaceIter.keep g p = true → g.tri.finiteCells[m.ins (num (g.tri.facet p.1 p.2))]? = some p.1

theorem finiteCells_nodup {d : Nat} (T : Tri d) : T.finiteCells.Nodup := List.Nodup.filter _ List.nodup_range

/-- **C159** On every process, iterating over the interface elements of a partition visits exactly those interface elements (of the iteration with one process, C19) that are interior
(owned) or ghosts there and belong to the partition, in the same order. -/
theorem C159_interface {d size dim inf me : Nat} (g : InterfaceIter.Grid d) (hs : 1 < size) (hw : divisor dim g.tri.finiteCells.length inf * size < word)
    (hme : me < size) {m : Mesh} (hm : m.WF) (h : IsRank size (divisor dim g.tri.finiteCells.length inf) g.tri.finiteCells.length m.rank)
    {num : Finset (Option Nat) → Nat} (hd : Describes g m num) (pi : PIType) :
    ∃ l, interfaceElements g size (divisor dim g.tri.finiteCells.length inf) me (fun F => (compute m me).ipart (num F)) pi = some l ∧
      l.Sublist (InterfaceIter.interfaceElements g) ∧
      ∀ p ∈ InterfaceIter.interfaceElements g, p ∈ l ↔
        (m.rank (m.ins (num (g.tri.facet p.1 p.2))) = me ∧ Wanted pi .interior) ∨
        (IsInterfaceGhost m me (num (g.tri.facet p.1 p.2)) ∧ Wanted pi .ghost) := by
  obtain ⟨h1, h2, h3⟩ := range_spec hs hw hme h pi
  unfold interfaceElements
  simp only
  generalize range size (divisor dim g.tri.finiteCells.length inf) g.tri.finiteCells.length me pi = r at *
  rw [if_pos h1, Iterate.rangeFor_eq_filter, filter_range _ _ _ h1 h2]
  · have e : InterfaceIter.interfaceElements g = ((g.tri.finiteCells.flatMap fun h => (List.finRange (d + 1)).map fun i => (h, i)).filter
        (InterfaceIter.keep g)) := by
      unfold InterfaceIter.interfaceElements
      rw [Iterate.rangeFor_eq_filter]
      rfl
    refine ⟨_, rfl, ?_, fun p hp => ?_⟩
    · rw [e, ← List.filter_filter]
      have : ((g.tri.finiteCells.flatMap fun h => (List.finRange (d + 1)).map fun i => (h, i)).filter
          fun p => contains pi ((compute m me).ipart (num (g.tri.facet p.1 p.2)))).filter (InterfaceIter.keep g) =
          ((g.tri.finiteCells.flatMap fun h => (List.finRange (d + 1)).map fun i => (h, i)).filter (InterfaceIter.keep g)).filter
          fun p => contains pi ((compute m me).ipart (num (g.tri.facet p.1 p.2))) := by
        rw [List.filter_filter, List.filter_filter]
        exact List.filter_congr fun a _ => Bool.and_comm _ _
      rw [this]
      exact List.filter_sublist
    · rw [e, List.mem_filter] at hp
      rw [List.mem_filter, hp.2, Bool.true_and]
      rcases ipart_cases hm me (hd.elem p hp.2) with ⟨hq, hr⟩ | ⟨hq, hg⟩ | ⟨hq, hr, hg⟩
      · rw [hq, contains_iff pi (Or.inl rfl)]
        have : ¬ IsInterfaceGhost m me (num (g.tri.facet p.1 p.2)) := fun hg => hg.1 hr
        simp [hp.1, this, hr, partitionType]
      · rw [hq, contains_iff pi (Or.inr (Or.inr rfl))]
        have : m.rank (m.ins (num (g.tri.facet p.1 p.2))) ≠ me := hg.1
        simp [hp.1, this, hg, partitionType]
      · rw [hq, contains_absent]
        simp [hr, hg]
  · intro k a hk hout x hx
    obtain ⟨i, -, rfl⟩ := List.mem_map.1 hx
    simp only
    by_contra hne
    rw [Bool.not_eq_false, Bool.and_eq_true] at hne
    have hk' := (List.getElem?_eq_some_iff.1 hk).1
    have hin := hd.ins (a, i) (List.mem_of_getElem? hk) hne.1
    simp only at hin
    have hkins : m.ins (num (g.tri.facet a i)) = k :=
      (List.getElem?_inj (List.getElem?_eq_some_iff.1 hin).1 (finiteCells_nodup g.tri)).1 (hin.trans hk.symm)
    rcases ipart_cases hm me (hd.elem (a, i) hne.1) with ⟨hq, hr⟩ | ⟨hq, hg⟩ | ⟨hq, hr, hg⟩
    · simp only at hr
      rw [hkins] at hr
      have := h3 k hk' (Or.inl hr)
      omega
    · have hc := hne.2
      simp only at hq
      rw [hq] at hc
      have := h3 k hk' (Or.inr (by rintro rfl; simp [contains] at hc))
      omega
    · have hc := hne.2
      simp only at hq
      rw [hq, contains_absent] at hc
      cases hc

/-- **C159** Facets: an iteration over a partition visits exactly the facets that belong to it, in order. A facet is interior if the process owns all its sides, border if it owns one of
two, ghost if it owns none but one side is a ghost. -/
theorem C159_facets {m : Mesh} (hm : m.WF) (me : Nat) (pi : PIType) (f : Nat × Option Nat) (hf : f ∈ m.facets) :
    f ∈ items (facetPart (compute m me)) pi m.facets ↔
      (((m.rank f.1 = me ∧ ∀ o, f.2 = some o → m.rank o = me) ∧ Wanted pi .interior) ∨
      ((∃ o, f.2 = some o ∧ ¬ (m.rank f.1 = me ↔ m.rank o = me)) ∧ Wanted pi .border) ∨
      ((m.rank f.1 ≠ me ∧ (∀ o, f.2 = some o → m.rank o ≠ me) ∧ (IsGhost m me f.1 ∨ ∃ o, f.2 = some o ∧ IsGhost m me o)) ∧ Wanted pi .ghost)) := by
  unfold items
  rw [Iterate.rangeFor_eq_filter, List.mem_filter]
  obtain ⟨a, b⟩ := f
  simp only [hf, true_and]
  cases b with
  | none =>
    simp only [facetPart]
    rcases part_cases hm me a with ⟨hp, hr⟩ | ⟨hp, hg⟩ | ⟨hp, hr, hg⟩
    · rw [hp]
      simp [contains_iff pi (p := 0) (Or.inl rfl), hr, partitionType]
    · rw [hp]
      have := hg.1
      simp [contains_iff pi (p := 2) (Or.inr (Or.inr rfl)), this, hg, partitionType]
    · rw [hp]
      simp [contains_absent, hr, hg]
  | some b =>
    have hab : m.rank a = me → m.rank b ≠ me → IsGhost m me b := fun h1 h2 => ⟨h2, Or.inl ⟨a, Or.inr hf, h1⟩⟩
    have hba : m.rank b = me → m.rank a ≠ me → IsGhost m me a := fun h1 h2 => ⟨h2, Or.inl ⟨b, Or.inl hf, h1⟩⟩
    have c0 := contains_iff pi (p := 0) (Or.inl rfl)
    have c1 := contains_iff pi (p := 1) (Or.inr (Or.inl rfl))
    have c2 := contains_iff pi (p := 2) (Or.inr (Or.inr rfl))
    have c3 := contains_absent pi
    simp only [facetPart]
    rcases part_cases hm me a with ⟨hp, hr⟩ | ⟨hp, hg⟩ | ⟨hp, hr, hg⟩ <;> rcases part_cases hm me b with ⟨hp', hr'⟩ | ⟨hp', hg'⟩ | ⟨hp', hr', hg'⟩
    · simp [hp, hp', hr, hr', c0, partitionType]
    · have := hg'.1
      simp [hp, hp', hr, this, c1, partitionType]
    · exact absurd (hab hr hr') hg'
    · have := hg.1
      simp [hp, hp', hr', this, c1, partitionType]
    · have h1 := hg.1
      have h2 := hg'.1
      simp [hp, hp', h1, h2, hg, c2, partitionType]
    · have h1 := hg.1
      simp [hp, hp', h1, hr', hg, c2, partitionType]
    · exact absurd (hba hr' hr) hg
    · have h1 := hg'.1
      simp [hp, hp', h1, hr, hg', c2, partitionType]
    · simp [hp, hp', hr, hr', hg, hg', c3]

/-- Two triangles with an interface between them, one per process. -/
def pair : Mesh where
  cells := [0, 1]
  facets := [(0, some 1), (0, none), (0, none), (1, none), (1, none)]
  rank := fun c => if c = 0 then 0 else 1
  ielems := [0]
  ins := fun _ => 0
  out := fun _ => some 1
  joints := [[0], [0]]

theorem pair_wf : pair.WF where
  sides := by
    intro e _ o ho
    have : o = 1 := by simpa [pair] using ho.symm
    subst this
    exact Or.inl (by simp [pair])
  joints := by decide

theorem pair_rank : IsRank 2 (divisor 2 2 3) 2 pair.rank := by
  obtain ⟨rank, hr, -⟩ := C34_owner (size := 2) (dim := 2) (n := 2) (inf := 3) (by decide) (by decide)
  intro me i hi
  rw [hr me i hi, ← hr 0 i hi]
  revert i
  decide

/-- The grid of `pair`. -/
def pairGrid : InterfaceIter.Grid 2 := { tri := InterfaceIter.exTri, ins := fun h => h, segs := {{some 1, some 2}} }

theorem pair_describes : Describes pairGrid pair fun _ => 0 where
  elem := by intro p _; simp [pair]
  ins := by
    rintro ⟨c, i⟩ hc hk
    have e : pairGrid.tri.finiteCells = [0, 1] := by decide
    simp only [e, List.mem_cons, List.not_mem_nil, or_false] at hc
    rcases hc with rfl | rfl
    · rfl
    · exfalso
      revert hk
      revert i
      decide

example : ∃ l, interfaceElements pairGrid 2 (divisor 2 pairGrid.tri.finiteCells.length 3) 0 (fun _ => (compute pair 0).ipart 0) .interior = some l ∧ l = [(0, 0)] := by
  refine ⟨_, rfl, ?_⟩
  rw [Iterate.rangeFor_eq_filter]
  decide

example := C159_interface (dim := 2) (inf := 3) (size := 2) (me := 0) pairGrid (by decide) (by decide) (by decide) pair_wf pair_rank pair_describes .all

example : elements 2 (divisor 2 2 3) 2 1 (compute pair 1).part .interior = some [1] ∧ elements 2 (divisor 2 2 3) 2 1 (compute pair 1).part .ghost = some [0] ∧
    elements 2 (divisor 2 2 3) 2 1 (compute pair 1).part .all = some [0, 1] := by
  simp only [elements, Iterate.rangeFor_eq_filter]
  decide

example := C159_facets pair_wf 0 .interiorBorder (0, some 1) (by simp [pair])

/-! ## C160, C161 -/

theorem contains_interiorBorder {p : Int} : contains .interiorBorder p = true ↔ p ≠ -1 ∧ p ≠ 2 := by
  unfold contains
  split <;> simp_all

theorem contains_all {p : Int} : contains .all p = true ↔ p ≠ -1 := by
  unfold contains
  split <;> simp_all

theorem mem_items {α : Type} {part : α → Int} {pi : PIType} {l : List α} {a : α} : a ∈ items part pi l ↔ a ∈ l ∧ contains pi (part a) = true := by
  unfold items
  rw [Iterate.rangeFor_eq_filter, List.mem_filter]

/-- **C160** The facets of an element that is interior are visited by an iteration over interior and border facets, those of a ghost by an iteration over all facets. -/
theorem C160_facets {m : Mesh} (hm : m.WF) (me : Nat) {f : Nat × Option Nat} (hf : f ∈ m.facets) {c : Nat} (hc : f.1 = c ∨ f.2 = some c) :
    (m.rank c = me → f ∈ items (facetPart (compute m me)) .interiorBorder m.facets) ∧
    (IsGhost m me c → f ∈ items (facetPart (compute m me)) .all m.facets) := by
  rw [C159_facets hm me _ f hf, C159_facets hm me _ f hf]
  obtain ⟨a, b⟩ := f
  simp only at hc hf ⊢
  refine ⟨fun h => ?_, fun h => ?_⟩
  · simp only [Wanted, or_true, and_true, reduceCtorEq, or_false, and_false]
    cases b with
    | none =>
      rcases hc with rfl | hc
      · exact Or.inl ⟨h, by simp⟩
      · cases hc
    | some b =>
      by_cases ha : m.rank a = me <;> by_cases hb : m.rank b = me
      · exact Or.inl ⟨ha, by simpa using hb⟩
      · exact Or.inr ⟨b, rfl, by tauto⟩
      · exact Or.inr ⟨b, rfl, by tauto⟩
      · rcases hc with rfl | hc
        · exact absurd h ha
        · simp only [Option.some.injEq] at hc
          subst hc
          exact absurd h hb
  · simp only [Wanted, and_true]
    cases b with
    | none =>
      rcases hc with rfl | hc
      · exact Or.inr (Or.inr ⟨h.1, by simp, Or.inl h⟩)
      · cases hc
    | some b =>
      by_cases ha : m.rank a = me <;> by_cases hb : m.rank b = me
      · exact Or.inl ⟨ha, by simpa using hb⟩
      · exact Or.inr (Or.inl ⟨b, rfl, by tauto⟩)
      · exact Or.inr (Or.inl ⟨b, rfl, by tauto⟩)
      · refine Or.inr (Or.inr ⟨ha, by simpa using hb, ?_⟩)
        rcases hc with rfl | hc
        · exact Or.inl h
        · simp only [Option.some.injEq] at hc
          subst hc
          exact Or.inr ⟨b, rfl, h⟩

/-- The elements of a list are connected by a relation between them. -/
def Connected (R : Nat → Nat → Prop) (star : List Nat) : Prop :=
  ∀ a ∈ star, ∀ b ∈ star, Relation.ReflTransGen (fun x y => x ∈ star ∧ y ∈ star ∧ R x y) a b

theorem crossing {R : Nat → Nat → Prop} {star : List Nat} {P : Nat → Prop} {a b : Nat}
    (h : Relation.ReflTransGen (fun x y => x ∈ star ∧ y ∈ star ∧ R x y) a b) (ha : P a) (hb : ¬ P b) :
    ∃ x ∈ star, ∃ y ∈ star, R x y ∧ P x ∧ ¬ P y := by
  induction h with
  | refl => exact absurd ha hb
  | @tail x y _ hxy ih =>
    by_cases hx : P x
    · exact ⟨x, hxy.1, y, hxy.2.1, hxy.2.2, hx, hb⟩
    · exact ih hx

/-- The classification of an entity whose elements are connected. -/
theorem classify_star (star : List Nat) (part : Nat → Int) (own : Nat → Prop) (h0 : ∀ c ∈ star, part c = 0 ↔ own c)
    (hg : ∀ x ∈ star, ¬ own x → (∃ y ∈ star, own y) → ∃ z ∈ star, part z = 2) :
    ((∃ c ∈ star, own c) → contains .interiorBorder (classify star.length (star.countP fun c => part c = 0) (star.countP fun c => part c = 2)) = true) ∧
    ((∃ c ∈ star, part c = 2) → contains .all (classify star.length (star.countP fun c => part c = 0) (star.countP fun c => part c = 2)) = true) := by
  constructor
  · rintro ⟨c, hc, ho⟩
    have h1 : 0 < star.countP fun c => decide (part c = 0) := List.countP_pos_iff.2 ⟨c, hc, decide_eq_true ((h0 c hc).2 ho)⟩
    rw [contains_interiorBorder]
    unfold classify
    split
    · decide
    · rename_i hne
      have h2 : 0 < star.countP fun c => decide (part c = 2) := by
        rw [List.countP_eq_length] at hne
        push Not at hne
        obtain ⟨x, hx, hx0⟩ := hne
        obtain ⟨z, hz, hz2⟩ := hg x hx (fun h => hx0 (decide_eq_true ((h0 x hx).2 h))) ⟨c, hc, ho⟩
        exact List.countP_pos_iff.2 ⟨z, hz, decide_eq_true hz2⟩
      rw [if_pos ⟨h1, h2⟩]
      decide
  · rintro ⟨c, hc, hp⟩
    have h2 : 0 < star.countP fun c => decide (part c = 2) := List.countP_pos_iff.2 ⟨c, hc, decide_eq_true hp⟩
    rw [contains_all]
    unfold classify
    split
    · decide
    · split
      · decide
      · decide

/-- **C160** Vertices, and edges in 3D: `star` are the elements at the vertex. If these are connected by facets, the vertices of an interior element are visited by an iteration over
interior and border vertices, those of a ghost by an iteration over all vertices. -/
theorem C160_vertices {m : Mesh} (hm : m.WF) (me : Nat) {stars : List (List Nat)} {star : List Nat} (hs : star ∈ stars) (hcon : Connected m.Adj star) {c : Nat} (hc : c ∈ star) :
    (m.rank c = me → star ∈ items (vertexPart (compute m me)) .interiorBorder stars) ∧
    (IsGhost m me c → star ∈ items (vertexPart (compute m me)) .all stars) := by
  obtain ⟨h1, h2⟩ := classify_star star (compute m me).part (fun c => m.rank c = me) (fun c _ => C35_interior hm me c) (by
    rintro x hx hox ⟨y, hy, hoy⟩
    obtain ⟨u, hu, v, hv, huv, hou, hov⟩ := crossing (P := fun c => m.rank c = me) (hcon y hy x hx) hoy hox
    exact ⟨v, hv, (C35_ghost hm me v).2 ⟨hov, Or.inl ⟨u, huv.symm, hou⟩⟩⟩)
  rw [mem_items, mem_items]
  exact ⟨fun h => ⟨hs, h1 ⟨c, hc, h⟩⟩, fun h => ⟨hs, h2 ⟨c, hc, (C35_ghost hm me c).2 h⟩⟩⟩

/-- **C160** Vertices of the interface in 2D, edges of the interface in 3D: those of an interior interface element are interior or border, those of a ghost are present. -/
theorem C160_joints {m : Mesh} (hm : m.WF) (me : Nat) {k : Nat} {j : List Nat} (hk : m.joints[k]? = some j) {e : Nat} (he : e ∈ j) {x : Int}
    (hx : (compute m me).jpart[k]? = some x) :
    (m.rank (m.ins e) = me → contains .interiorBorder x = true) ∧ (IsInterfaceGhost m me e → contains .all x = true) := by
  have hjp := (c_inv hm me).jpart
  have h0 : (ghosts m me).jpart = [] := by
    rw [(g_inv hm me).rest.2.2.2, (i_inv m me).cells.2.2, (bulk_inv m me).irest.2.2]
  rw [h0, List.nil_append] at hjp
  rw [hjp, List.getElem?_map, hk] at hx
  simp only [Option.map_some, Option.some.injEq] at hx
  have hj : j ∈ m.joints := List.mem_of_getElem? hk
  have heq : (ghosts m me).ipart = (compute m me).ipart := (c_inv hm me).rest.2.2.symm
  obtain ⟨h1, h2⟩ := classify_star j (compute m me).ipart (fun e => m.rank (m.ins e) = me) (fun e he => C35_interface_interior hm me (hm.joints j hj e he)) (by
    rintro x hx hox ⟨y, hy, hoy⟩
    exact ⟨x, hx, (C35_interface_ghost hm me (hm.joints j hj x hx)).2 ⟨hox, Or.inr ⟨j, hj, hx, y, hy, hoy⟩⟩⟩)
  rw [← hx, heq]
  exact ⟨fun h => h1 ⟨e, he, h⟩, fun h => h2 ⟨e, he, (C35_interface_ghost hm me (hm.joints j hj e he)).2 h⟩⟩

/-- Two interface elements have a common edge. -/
def SameJoint (m : Mesh) (e e' : Nat) : Prop := ∃ j ∈ m.joints, e ∈ j ∧ e' ∈ j

/-- **C160** Vertices of the interface in 3D, if the interface elements at the vertex are connected by edges. -/
theorem C160_interface_vertices {m : Mesh} (hm : m.WF) (me : Nat) {stars : List (List Nat)} {star : List Nat} (hs : star ∈ stars) (hi : ∀ e ∈ star, e ∈ m.ielems)
    (hcon : Connected (SameJoint m) star) {e : Nat} (he : e ∈ star) :
    (m.rank (m.ins e) = me → star ∈ items (interfaceVertexPart (compute m me)) .interiorBorder stars) ∧
    (IsInterfaceGhost m me e → star ∈ items (interfaceVertexPart (compute m me)) .all stars) := by
  obtain ⟨h1, h2⟩ := classify_star star (compute m me).ipart (fun e => m.rank (m.ins e) = me) (fun e he => C35_interface_interior hm me (hi e he)) (by
    rintro x hx hox ⟨y, hy, hoy⟩
    obtain ⟨u, hu, v, hv, ⟨j, hj, huj, hvj⟩, hou, hov⟩ := crossing (P := fun e => m.rank (m.ins e) = me) (hcon y hy x hx) hoy hox
    exact ⟨v, hv, (C35_interface_ghost hm me (hi v hv)).2 ⟨hov, Or.inr ⟨j, hj, hvj, u, huj, hou⟩⟩⟩)
  rw [mem_items, mem_items]
  exact ⟨fun h => ⟨hs, h1 ⟨e, he, h⟩⟩, fun h => ⟨hs, h2 ⟨e, he, (C35_interface_ghost hm me (hi e he)).2 h⟩⟩⟩

example : Connected pair.Adj [0, 1] := by
  intro a ha b hb
  have h01 : pair.Adj 0 1 := Or.inl (by simp [pair])
  have h10 : pair.Adj 1 0 := Or.inr (by simp [pair])
  simp only [List.mem_cons, List.not_mem_nil, or_false] at ha hb
  rcases ha with rfl | rfl <;> rcases hb with rfl | rfl
  · exact .refl
  · exact .single ⟨by simp, by simp, h01⟩
  · exact .single ⟨by simp, by simp, h10⟩
  · exact .refl

example : vertexPart (compute pair 0) [0, 1] = 1 ∧ vertexPart (compute pair 0) [0] = 0 ∧ vertexPart (compute pair 0) [1] = 2 ∧
    (compute pair 0).jpart = [0, 0] ∧ (compute pair 1).jpart = [2, 2] := by decide

/-- Part of a mesh of tetrahedra: two interface triangles, 10 between the elements 0 and 1 and 11 between the elements 4 and 5, have one vertex in common and no edge; the elements 2 and
3 at this vertex are between them. Elements 0 to 2 belong to one process, 3 to 5 to the other. -/
def pinch : Mesh where
  cells := [0, 1, 2, 3, 4, 5]
  facets := [(0, some 1), (1, some 2), (2, some 3), (3, some 4), (4, some 5)]
  rank := fun c => if c < 3 then 0 else 1
  ielems := [10, 11]
  ins := fun e => if e = 10 then 0 else 4
  out := fun e => if e = 10 then some 1 else some 5
  joints := [[10], [10], [10], [11], [11], [11]]

theorem pinch_wf : pinch.WF where
  sides := by
    intro e he o ho
    simp only [pinch, List.mem_cons, List.not_mem_nil, or_false] at he
    rcases he with rfl | rfl
    · have : o = 1 := by simpa [pinch] using ho.symm
      subst this
      exact Or.inl (by simp [pinch])
    · have : o = 5 := by simpa [pinch] using ho.symm
      subst this
      exact Or.inl (by simp [pinch])
  joints := by decide

/-- **C161** The claim without the condition on connection fails in 3D: at `pinch`, the process 0 owns the interface element 10, but its vertex that is common with 11 is in no partition:
no iteration over vertices visits it. The same holds for process 1. -/
theorem C161_false : ¬ ∀ (m : Mesh), m.WF → ∀ (me : Nat) (stars : List (List Nat)), ∀ star ∈ stars, (∀ e ∈ star, e ∈ m.ielems) → ∀ e ∈ star, m.rank (m.ins e) = me →
    ∃ pi, star ∈ items (interfaceVertexPart (compute m me)) pi stars := by
  intro h
  obtain ⟨pi, h⟩ := h pinch pinch_wf 0 [[10, 11]] [10, 11] (by simp) (by decide) 10 (by simp) (by decide)
  rw [mem_items, show interfaceVertexPart (compute pinch 0) [10, 11] = -1 by decide, contains_absent] at h
  cases h.2

/-- **C161** In general, exactly the vertices with an owned element, one that is not owned, and no ghost are missing among those of owned elements. -/
theorem C161_missing_partial {m : Mesh} (hm : m.WF) (me : Nat) {star : List Nat} (hi : ∀ e ∈ star, e ∈ m.ielems) (hown : ∃ e ∈ star, m.rank (m.ins e) = me) :
    (∀ pi, contains pi (interfaceVertexPart (compute m me) star) = false) ↔
      (∃ e ∈ star, m.rank (m.ins e) ≠ me) ∧ ∀ e ∈ star, ¬ IsInterfaceGhost m me e := by
  have h0 : ∀ e ∈ star, (compute m me).ipart e = 0 ↔ m.rank (m.ins e) = me := fun e he => C35_interface_interior hm me (hi e he)
  have h2 : ∀ e ∈ star, (compute m me).ipart e = 2 ↔ IsInterfaceGhost m me e := fun e he => C35_interface_ghost hm me (hi e he)
  have hall : (star.countP fun e => decide ((compute m me).ipart e = 0)) = star.length ↔ ¬ ∃ e ∈ star, m.rank (m.ins e) ≠ me := by
    rw [List.countP_eq_length]
    push Not
    exact forall₂_congr fun e he => by rw [decide_eq_true_iff, h0 e he]
  have hpos : 0 < (star.countP fun e => decide ((compute m me).ipart e = 0)) := by
    obtain ⟨e, he, ho⟩ := hown
    exact List.countP_pos_iff.2 ⟨e, he, decide_eq_true ((h0 e he).2 ho)⟩
  have hgh : 0 < (star.countP fun e => decide ((compute m me).ipart e = 2)) ↔ ¬ ∀ e ∈ star, ¬ IsInterfaceGhost m me e := by
    rw [List.countP_pos_iff]
    push Not
    exact ⟨fun ⟨e, he, h⟩ => ⟨e, he, (h2 e he).1 (of_decide_eq_true h)⟩, fun ⟨e, he, h⟩ => ⟨e, he, decide_eq_true ((h2 e he).2 h)⟩⟩
  unfold interfaceVertexPart classify
  split
  · rename_i h
    constructor
    · intro hc
      exact absurd (hc .all) (by decide)
    · intro hc
      exact absurd hc.1 (hall.1 h)
  · rename_i h
    rw [hall, not_not] at h
    by_cases hg : 0 < (star.countP fun e => decide ((compute m me).ipart e = 2))
    · rw [if_pos ⟨hpos, hg⟩]
      constructor
      · intro hc
        exact absurd (hc .all) (by decide)
      · intro hc
        exact absurd hc.2 (hgh.1 hg)
    · rw [if_neg (fun h => hg h.2), if_neg hg]
      rw [hgh, not_not] at hg
      exact ⟨fun _ => ⟨h, hg⟩, fun _ => contains_absent⟩

/-! ## C162, C163 -/

/-- **C163** `ghostSize(0)` is the number of elements that an iteration over ghosts visits. -/
theorem C163_elements {size dim n inf me : Nat} (hs : 1 < size) (hw : divisor dim n inf * size < word) (hme : me < size) {m : Mesh} (hm : m.WF)
    (h : IsRank size (divisor dim n inf) n m.rank) (hd : 2 ≤ dim) (fs vs : List Int) :
    ∃ l, elements size (divisor dim n inf) n me (compute m me).part .ghost = some l ∧ ghostSize dim ((List.range n).map (compute m me).part) fs vs 0 = l.length ∧
      l.Nodup ∧ ∀ c, c ∈ l ↔ c < n ∧ IsGhost m me c := by
  obtain ⟨l, hl, hp, hmem⟩ := C159_elements hs hw hme hm h .ghost
  refine ⟨l, hl, ?_, hp.imp fun h => Nat.ne_of_lt h, fun c => by simp [hmem, Wanted]⟩
  have hr : range size (divisor dim n inf) n me .ghost = (0, n) := by simp [range]
  unfold elements at hl
  simp only [hr, Nat.zero_le, if_true, Nat.sub_zero, Option.some.injEq, ← List.range_eq_range', Iterate.rangeFor_eq_filter] at hl
  unfold ghostSize items
  rw [if_pos rfl, if_neg (by omega), if_neg (by omega), ← hl, Iterate.rangeFor_eq_filter, List.filter_map, List.length_map]
  rfl

theorem filter_ghost (ps : List Int) (h : ∀ p ∈ ps, p = -1 ∨ p = 0 ∨ p = 1 ∨ p = 2) :
    (items id .all ps).filter (fun p => partitionType p = .ghost) = items id .ghost ps := by
  unfold items
  rw [Iterate.rangeFor_eq_filter, Iterate.rangeFor_eq_filter, List.filter_filter]
  refine List.filter_congr fun p hp => ?_
  rcases h p hp with rfl | rfl | rfl | rfl <;> decide

theorem facetPart_cases (s : Part) (f : Nat × Option Nat) : facetPart s f = -1 ∨ facetPart s f = 0 ∨ facetPart s f = 1 ∨ facetPart s f = 2 := by
  unfold facetPart
  split <;> split_ifs <;> simp

theorem classify_cases (a b c : Nat) : classify a b c = -1 ∨ classify a b c = 0 ∨ classify a b c = 1 ∨ classify a b c = 2 := by
  unfold classify
  split_ifs <;> simp

/-- **C163** `ghostSize(1)` and `ghostSize(dimension)` are the numbers of facets and vertices that an iteration over ghosts visits. -/
theorem C163_facets (dim : Nat) (hd : 2 ≤ dim) (s : Part) (facets : List (Nat × Option Nat)) (stars : List (List Nat)) (es : List Int) :
    ghostSize dim es (facets.map (facetPart s)) (stars.map (vertexPart s)) 1 = (items (facetPart s) .ghost facets).length ∧
    ghostSize dim es (facets.map (facetPart s)) (stars.map (vertexPart s)) dim = (items (vertexPart s) .ghost stars).length := by
  have key : ∀ {α : Type} (part : α → Int) (l : List α), (∀ a, part a = -1 ∨ part a = 0 ∨ part a = 1 ∨ part a = 2) →
      ((items id .all (l.map part)).filter fun p => partitionType p = .ghost).length = (items part .ghost l).length := by
    intro α part l h
    rw [filter_ghost _ (by rintro p hp; obtain ⟨a, -, rfl⟩ := List.mem_map.1 hp; exact h a)]
    unfold items
    rw [Iterate.rangeFor_eq_filter, Iterate.rangeFor_eq_filter, List.filter_map, List.length_map]
    rfl
  unfold ghostSize
  rw [if_neg (by omega), if_pos rfl, if_neg (by omega), if_neg (by omega), if_neg (by omega), if_pos rfl, key _ _ (facetPart_cases s), key (vertexPart s) _ fun _ => classify_cases _ _ _]
  omega

example : ghostSize 2 ((List.range 2).map (compute pair 0).part) (pair.facets.map (facetPart (compute pair 0))) ([[0], [0, 1], [0, 1], [1]].map (vertexPart (compute pair 0))) 0 = 1 ∧
    ghostSize 2 ((List.range 2).map (compute pair 0).part) (pair.facets.map (facetPart (compute pair 0))) ([[0], [0, 1], [0, 1], [1]].map (vertexPart (compute pair 0))) 1 = 2 ∧
    ghostSize 2 ((List.range 2).map (compute pair 0).part) (pair.facets.map (facetPart (compute pair 0))) ([[0], [0, 1], [0, 1], [1]].map (vertexPart (compute pair 0))) 2 = 1 := by
  simp only [ghostSize, items, Iterate.rangeFor_eq_filter]
  decide

/-- **C162** The count is always zero for edges in 3D, whatever the number of ghost edges. -/
theorem C162_edges_partial (es fs vs : List Int) : ghostSize 3 es fs vs 2 = 0 := by simp [ghostSize]

/-- **C162** `ghostSize(codim)` is not the number of ghosts of this codimension for every codimension: two tetrahedra with a common facet on two processes; the edges of the other element
that are not edges of the facet (`[1]`, three of them) are ghosts and visited, but `ghostSize(2)` is zero. -/
theorem C162_false : ¬ ∀ (m : Mesh), m.WF → ∀ (me : Nat) (edges : List (List Nat)) (es fs vs : List Int),
    ghostSize 3 es fs vs 2 = (items (vertexPart (compute m me)) .ghost edges).length := by
  intro h
  have := h pair pair_wf 0 [[0], [0], [0], [0, 1], [0, 1], [0, 1], [1], [1], [1]] [] [] []
  rw [C162_edges_partial, items, Iterate.rangeFor_eq_filter] at this
  revert this
  decide

end Verif.PartIter
