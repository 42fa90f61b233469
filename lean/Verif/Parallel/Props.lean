import Mathlib.Tactic.Tauto
import Verif.Parallel.Lemmas

/-!
# C35 to C37: ghosts, links, and communication
-/

namespace Verif.Parallel

/-! ## Specification -/

/-- Two cells share a facet. -/
def Mesh.Adj (m : Mesh) (c d : Nat) : Prop := (c, some d) ∈ m.facets ∨ (d, some c) ∈ m.facets

/-- The process owns an interface element that meets `e` in one of the vertices. -/
def Mesh.Meets (m : Mesh) (e p : Nat) : Prop := ∃ j ∈ m.joints, e ∈ j ∧ ∃ e' ∈ j, m.rank (m.ins e') = p

/-- The process owns the cell on the other side of the interface element. -/
def Mesh.Across (m : Mesh) (e p : Nat) : Prop := ∃ o, m.out e = some o ∧ m.rank o = p

/-! ## C35: ghosts and links -/

theorem compute_own {m : Mesh} (hw : m.WF) {me c : Nat} (h : m.rank c = me) : (compute m me).part c = 0 := by
  rw [(c_inv hw me).rest.1]
  exact (g_inv hw me).own c h

theorem compute_other {m : Mesh} (hw : m.WF) {me c : Nat} (h : m.rank c ≠ me) :
    (compute m me).part c = 2 ∨ (compute m me).part c = -1 := by
  rw [(c_inv hw me).rest.1]
  exact (g_inv hw me).other c h

/-- C35: an element is interior on a process exactly if its rank is that of the process. -/
theorem C35_interior {m : Mesh} (hw : m.WF) (me c : Nat) : (compute m me).part c = 0 ↔ m.rank c = me := by
  constructor
  · intro h
    by_contra hne
    rcases compute_other hw hne with h1 | h1 <;> omega
  · exact compute_own hw

/-- The ghosts of the interface grid: an interface element is a ghost exactly if another process owns it, and the process
owns the cell on its outer side, or an interface element that meets it. -/
theorem C35_interface_ghost {m : Mesh} (hw : m.WF) (me : Nat) {e : Nat} (he : e ∈ m.ielems) :
    (compute m me).ipart e = 2 ↔ m.rank (m.ins e) ≠ me ∧ (m.Across e me ∨ m.Meets e me) := by
  rw [(c_inv hw me).rest.2.2]
  by_cases h : m.irank e = me
  · rw [(g_inv hw me).iown e he h]
    constructor
    · intro h; exact absurd h (by decide)
    · intro h'; exact absurd h h'.1
  · rw [(g_inv hw me).ighost e he h, mem_treated h]
    constructor
    · rintro (h1 | ⟨j, hj, h1, h2⟩)
      · exact ⟨h, Or.inl h1⟩
      · exact ⟨h, Or.inr ⟨j, hj, h1, h2⟩⟩
    · rintro ⟨_, h1 | ⟨j, hj, h1, h2⟩⟩
      · exact Or.inl h1
      · exact Or.inr ⟨j, hj, h1, h2⟩

/-- An interface element is interior exactly if its inside is. -/
theorem C35_interface_interior {m : Mesh} (hw : m.WF) (me : Nat) {e : Nat} (he : e ∈ m.ielems) :
    (compute m me).ipart e = 0 ↔ m.rank (m.ins e) = me := by
  rw [(c_inv hw me).rest.2.2]
  constructor
  · intro h
    by_contra hne
    rcases (g_inv hw me).iother e he hne with h1 | h1 <;> omega
  · exact (g_inv hw me).iown e he

/-- The ghosts of the bulk grid, in full: elements of other processes that share a facet with an interior element, or
that are next to an interface element meeting an interior interface element. -/
theorem C35_ghost {m : Mesh} (hw : m.WF) (me c : Nat) :
    (compute m me).part c = 2 ↔ m.rank c ≠ me ∧ ((∃ d, m.Adj c d ∧ m.rank d = me) ∨
      ∃ e ∈ m.ielems, m.rank (m.ins e) ≠ me ∧ m.Meets e me ∧ (m.ins e = c ∨ m.out e = some c)) := by
  by_cases h : m.rank c = me
  · rw [compute_own hw h]
    constructor
    · intro h; exact absurd h (by decide)
    · intro h'; exact absurd h h'.1
  · rw [(c_inv hw me).rest.1, (g_inv hw me).ghost c h]
    constructor
    · rintro (⟨d, h1, h2⟩ | ⟨e, he, h1, h2⟩)
      · exact ⟨h, Or.inl ⟨d, h1, h2⟩⟩
      · have hm := (mem_treated h1).1 he
        obtain ⟨j, hj, hej, hat⟩ := hm
        exact ⟨h, Or.inr ⟨e, hw.joints j hj e hej, h1, ⟨j, hj, hej, hat⟩, h2⟩⟩
    · rintro ⟨_, ⟨d, h1, h2⟩ | ⟨e, he, h1, ⟨j, hj, hej, hat⟩, h3⟩⟩
      · exact Or.inl ⟨d, h1, h2⟩
      · exact Or.inr ⟨e, (mem_treated h1).2 ⟨j, hj, hej, hat⟩, h1, h3⟩

/-- C114 in a grid without interface vertices. Missing: with an interface there are more ghosts, see `C35_ghost` and
`C114_interface_false`. -/
theorem C114_ghost_partial {m : Mesh} (hw : m.WF) (hj : m.joints = []) (me c : Nat) :
    (compute m me).part c = 2 ↔ m.rank c ≠ me ∧ ∃ d, m.Adj c d ∧ m.rank d = me := by
  rw [C35_ghost hw]
  constructor
  · rintro ⟨h, h1 | ⟨e, _, _, ⟨j, h2, _⟩, _⟩⟩
    · exact ⟨h, h1⟩
    · rw [hj] at h2; simp at h2
  · rintro ⟨h, h1⟩
    exact ⟨h, Or.inl h1⟩

/-- Who is linked with whom, in terms of the grid. -/
theorem mem_links {m : Mesh} (hw : m.WF) (p q : Nat) : q ∈ (compute m p).links ↔ q ≠ p ∧
    ((∃ c d, m.Adj c d ∧ m.rank c = p ∧ m.rank d = q) ∨
     ∃ j ∈ m.joints, (∃ e ∈ j, m.rank (m.ins e) = p) ∧ ∃ e ∈ j, m.rank (m.ins e) = q) := by
  rw [(c_inv hw p).links, (g_inv hw p).rest.2.2.1, (i_inv m p).links, (bulk_inv m p).links]
  constructor
  · rintro ((⟨c, d, h1, h2, h3, h4⟩ | ⟨e, he, h1, h2, o, h3, h4⟩) | ⟨j, hj, h1, h2, h3⟩)
    · exact ⟨h4, Or.inl ⟨c, d, h1, h2, h3⟩⟩
    · exact ⟨h2, Or.inl ⟨m.ins e, o, hw.sides e he o h3, h1, h4⟩⟩
    · exact ⟨h3, Or.inr ⟨j, hj, h1, h2⟩⟩
  · rintro ⟨h4, ⟨c, d, h1, h2, h3⟩ | ⟨j, hj, h1, h2⟩⟩
    · exact Or.inl (Or.inl ⟨c, d, h1, h2, h3, h4⟩)
    · exact Or.inr ⟨j, hj, h1, h2, h4⟩

/-- C35: two processes agree on whether they are linked. -/
theorem C35_links {m : Mesh} (hw : m.WF) (p q : Nat) : q ∈ (compute m p).links ↔ p ∈ (compute m q).links := by
  rw [mem_links hw, mem_links hw]
  constructor
  · rintro ⟨h, ⟨c, d, h1, h2, h3⟩ | ⟨j, hj, h1, h2⟩⟩
    · exact ⟨Ne.symm h, Or.inl ⟨d, c, Or.symm h1, h3, h2⟩⟩
    · exact ⟨Ne.symm h, Or.inr ⟨j, hj, h2, h1⟩⟩
  · rintro ⟨h, ⟨c, d, h1, h2, h3⟩ | ⟨j, hj, h1, h2⟩⟩
    · exact ⟨Ne.symm h, Or.inl ⟨d, c, Or.symm h1, h3, h2⟩⟩
    · exact ⟨Ne.symm h, Or.inr ⟨j, hj, h2, h1⟩⟩

/-- A process is not linked with itself, and no link comes twice. -/
theorem C35_links_proper {m : Mesh} (hw : m.WF) (p : Nat) : p ∉ (compute m p).links := by
  rw [mem_links hw]
  exact fun h => h.1 rfl

/-- The partition of a facet: interior exactly if all its sides are interior, border exactly if one of two sides is. A
facet of an interior element is never without partition. -/
theorem C35_facets {m : Mesh} (hw : m.WF) (me : Nat) {a b : Nat} (h : (a, some b) ∈ m.facets) :
    (facetPart (compute m me) (a, some b) = 0 ↔ m.rank a = me ∧ m.rank b = me) ∧
    (facetPart (compute m me) (a, some b) = 1 ↔ ¬ (m.rank a = me ↔ m.rank b = me)) := by
  have ha : (compute m me).part a = 0 ∧ m.rank a = me ∨ (compute m me).part a = 2 ∧ m.rank a ≠ me ∨
      (compute m me).part a = -1 ∧ m.rank a ≠ me := by
    by_cases h1 : m.rank a = me
    · exact Or.inl ⟨compute_own hw h1, h1⟩
    · rcases compute_other hw h1 with h2 | h2
      · exact Or.inr (Or.inl ⟨h2, h1⟩)
      · exact Or.inr (Or.inr ⟨h2, h1⟩)
  have hb : (compute m me).part b = 0 ∧ m.rank b = me ∨ (compute m me).part b = 2 ∧ m.rank b ≠ me ∨
      (compute m me).part b = -1 ∧ m.rank b ≠ me := by
    by_cases h1 : m.rank b = me
    · exact Or.inl ⟨compute_own hw h1, h1⟩
    · rcases compute_other hw h1 with h2 | h2
      · exact Or.inr (Or.inl ⟨h2, h1⟩)
      · exact Or.inr (Or.inr ⟨h2, h1⟩)
  have hga : m.rank a ≠ me → m.rank b = me → (compute m me).part a = 2 := fun h1 h2 =>
    (C35_ghost hw me a).2 ⟨h1, Or.inl ⟨b, Or.inl h, h2⟩⟩
  have hgb : m.rank b ≠ me → m.rank a = me → (compute m me).part b = 2 := fun h1 h2 =>
    (C35_ghost hw me b).2 ⟨h1, Or.inl ⟨a, Or.inr h, h2⟩⟩
  simp only [facetPart]
  rcases ha with ⟨a1, a2⟩ | ⟨a1, a2⟩ | ⟨a1, a2⟩ <;> rcases hb with ⟨b1, b2⟩ | ⟨b1, b2⟩ | ⟨b1, b2⟩ <;>
    first
    | (exfalso; have := hga a2 b2; omega)
    | (exfalso; have := hgb b2 a2; omega)
    | simp [a1, b1, a2, b2]

/-- The partition of an interface vertex (2D) is border exactly if the process owns an interface element there and another
process does, too. -/
theorem C35_vertices {m : Mesh} (hw : m.WF) (me : Nat) :
    (compute m me).jpart.length = m.joints.length ∧ ∀ (k : Nat) (j : List Nat), m.joints[k]? = some j → ∀ (x : Int),
      (compute m me).jpart[k]? = some x →
      (x = 0 ↔ ∀ e ∈ j, m.rank (m.ins e) = me) ∧
      (x = 1 ↔ (∃ e ∈ j, m.rank (m.ins e) = me) ∧ ∃ e ∈ j, m.rank (m.ins e) ≠ me) := by
  have hjp := (c_inv hw me).jpart
  have h0 : (ghosts m me).jpart = [] := by
    rw [(g_inv hw me).rest.2.2.2, (i_inv m me).cells.2.2, (bulk_inv m me).irest.2.2]
  rw [h0, List.nil_append] at hjp
  refine ⟨by rw [hjp, List.length_map], ?_⟩
  intro k j hk x hx
  rw [hjp, List.getElem?_map, hk] at hx
  simp only [Option.map_some, Option.some.injEq] at hx
  have hj : j ∈ m.joints := List.mem_of_getElem? hk
  have hz : ∀ e ∈ j, ((ghosts m me).ipart e = 0 ↔ m.rank (m.ins e) = me) := by
    intro e he
    have := C35_interface_interior hw me (hw.joints j hj e he)
    rwa [(c_inv hw me).rest.2.2] at this
  have hall : (j.countP fun e => decide ((ghosts m me).ipart e = 0)) = j.length ↔ ∀ e ∈ j, m.rank (m.ins e) = me := by
    rw [List.countP_eq_length]
    constructor
    · intro h e he; exact (hz e he).1 (of_decide_eq_true (h e he))
    · intro h e he; exact decide_eq_true ((hz e he).2 (h e he))
  unfold classify at hx
  constructor
  · rw [← hall]
    constructor
    · intro h
      by_contra hne
      rw [if_neg hne] at hx
      split at hx
      · omega
      · split at hx <;> omega
    · intro h
      rw [if_pos h] at hx
      exact hx.symm
  · constructor
    · intro h
      subst h
      split at hx
      · omega
      · rename_i hne
        split at hx
        · rename_i hpos
          refine ⟨?_, ?_⟩
          · obtain ⟨e, he, h1⟩ := List.countP_pos_iff.1 hpos.1
            exact ⟨e, he, (hz e he).1 (of_decide_eq_true h1)⟩
          · by_contra hno
            apply hne
            rw [hall]
            intro e he
            by_contra h1
            exact hno ⟨e, he, h1⟩
        · split at hx <;> omega
    · rintro ⟨⟨e, he, h1⟩, ⟨e', he', h2⟩⟩
      have hne : ¬ (j.countP fun e => decide ((ghosts m me).ipart e = 0)) = j.length := fun h => h2 (hall.1 h e' he')
      have hpos1 : 0 < j.countP fun e => decide ((ghosts m me).ipart e = 0) :=
        List.countP_pos_iff.2 ⟨e, he, decide_eq_true ((hz e he).2 h1)⟩
      have hpos2 : 0 < j.countP fun e => decide ((ghosts m me).ipart e = 2) := by
        refine List.countP_pos_iff.2 ⟨e', he', decide_eq_true ?_⟩
        have := (C35_interface_ghost hw me (hw.joints j hj e' he')).2 ⟨h2, Or.inr ⟨j, hj, he', e, he, h1⟩⟩
        rwa [(c_inv hw me).rest.2.2] at this
      rw [if_neg hne, if_pos ⟨hpos1, hpos2⟩] at hx
      exact hx.symm

/-- The clearing of the maps runs over the end of the array in every dimension. -/
theorem C114_clear_false : ¬ ∃ dim, (∀ i ∈ (cleared dim).1, i < (cleared dim).2) := by
  rintro ⟨dim, h⟩
  have := h dim (by simp [cleared])
  simp [cleared] at this
  omega

/-- Four cells in a row, an interface with two elements meeting in one vertex: 10 between 0 and 1, 11 between 2 and 3. (The
row bends around the vertex: 1 and 2 share a facet, too.) -/
def bend : Mesh where
  cells := [0, 1, 2, 3]
  facets := [(0, some 1), (1, some 2), (2, some 3), (0, none), (3, none)]
  rank := fun c => if c ≤ 1 then 0 else 1
  ielems := [10, 11]
  ins := fun e => if e = 10 then 0 else 2
  out := fun e => if e = 10 then some 1 else some 3
  joints := [[10], [10, 11], [11]]

theorem bend_wf : bend.WF := by
  constructor
  · intro e he o ho
    simp only [bend, List.mem_cons, List.not_mem_nil, or_false] at he
    rcases he with rfl | rfl
    · simp only [bend, if_true, Option.some.injEq] at ho
      subst ho; simp [AdjIn, bend]
    · simp only [bend] at ho
      simp only [show ¬ (11 = 10) by decide, if_false, Option.some.injEq] at ho
      subst ho; simp [AdjIn, bend]
  · decide

example : (compute bend 0).part 3 = 2 ∧ (compute bend 0).part 2 = 2 ∧ (compute bend 0).links = [1] ∧
    (compute bend 1).links = [0] ∧ (compute bend 0).jpart = [0, 1, 2] := by decide

/-- C114 as stated is false: cell 3 is a ghost on process 0, but it shares no facet with a cell of process 0. -/
theorem C114_interface_false : ¬ ∀ (m : Mesh), m.WF → ∀ me c, (compute m me).part c = 2 ↔
    m.rank c ≠ me ∧ ∃ d, m.Adj c d ∧ m.rank d = me := by
  intro h
  have h1 := (h bend bend_wf 0 3).1 (by decide)
  obtain ⟨d, h2, h3⟩ := h1.2
  simp only [Mesh.Adj, bend, List.mem_cons, Prod.mk.injEq, Option.some.injEq, List.not_mem_nil, or_false] at h2
  rcases h2 with h2 | h2
  · rcases h2 with ⟨h2, _⟩ | ⟨h2, _⟩ | ⟨h2, _⟩ | ⟨h2, _⟩ | ⟨_, h2⟩
    · omega
    · omega
    · omega
    · omega
    · simp at h2
  · rcases h2 with ⟨h2, h4⟩ | ⟨h2, h4⟩ | ⟨h2, h4⟩ | ⟨h2, h4⟩ | ⟨h2, h4⟩
    · omega
    · omega
    · subst h2; simp [bend] at h3
    · simp at h4
    · simp at h4

/-! ## Reading a message -/

theorem readItems_pack {Item : Type} (gather : Item → List Nat) : ∀ (is : List Item) (rest : List Nat),
    readItems is ((is.flatMap fun i => (gather i).length :: gather i) ++ rest) = some (is.map fun i => (i, gather i), rest) := by
  intro is
  induction is with
  | nil => intro rest; rfl
  | cons i is ih =>
    intro rest
    simp only [List.flatMap_cons, List.cons_append, List.append_assoc, readItems, readOne]
    rw [if_pos (by simp)]
    simp [ih]

theorem unpack_pack {Item : Type} (items : Nat → List Item) (gather : Item → List Nat) (elems : List Nat) :
    unpack items elems (pack items gather elems) = some ((elems.flatMap items).map fun i => (i, gather i), []) := by
  have := readItems_pack gather (elems.flatMap items) []
  rw [List.append_nil, List.flatMap_assoc] at this
  exact this

/-! ## C36: communication in the bulk grid -/

theorem mem_conn {m : Mesh} (hw : m.WF) (p c r : Nat) : r ∈ (compute m p).conn c ↔
    ∃ d, m.Adj c d ∧ m.rank d = r ∧ m.rank c ≠ r ∧ (m.rank c = p ∨ r = p) := by
  rw [(c_inv hw p).rest.2.1, (g_inv hw p).rest.1, (i_inv m p).cells.2.1]
  exact (bulk_inv m p).conn c r

theorem ne_nil_iff {l : List Nat} : l ≠ [] ↔ ∃ x, x ∈ l := by
  cases l with
  | nil => simp
  | cons a l => simp

/-- What process `p` packs for process `q`: its elements with a neighbour on `q`. -/
theorem C36_packed {m : Mesh} (hw : m.WF) {p q : Nat} (hpq : p ≠ q) (c : Nat) :
    c ∈ m.selectCells p 0 q ↔ c ∈ m.cells ∧ m.rank c = p ∧ ∃ d, m.Adj c d ∧ m.rank d = q := by
  simp only [Mesh.selectCells, select, List.mem_filter, decide_eq_true_eq, C35_interior hw, ne_nil_iff, mem_conn hw]
  constructor
  · rintro ⟨hc, h1, _, h2⟩
    refine ⟨hc, h1, ?_⟩
    rcases h2 with ⟨d, h3, h4, _⟩ | h2
    · exact ⟨d, h3, h4⟩
    · exact absurd (h1.symm.trans h2.symm) hpq
  · rintro ⟨hc, h1, d, h2, h3⟩
    have h4 : ∃ d, m.Adj c d ∧ m.rank d = q ∧ m.rank c ≠ q ∧ (m.rank c = p ∨ q = p) :=
      ⟨d, h2, h3, by rw [h1]; exact hpq, Or.inl h1⟩
    exact ⟨hc, h1, ⟨q, h4⟩, Or.inl h4⟩

/-- What process `q` unpacks from process `p`: elements of `p` with a neighbour on `q`. -/
theorem C36_unpacked {m : Mesh} (hw : m.WF) {p q : Nat} (hpq : p ≠ q) (c : Nat) :
    c ∈ m.selectCells q 2 p ↔ c ∈ m.cells ∧ m.rank c = p ∧ ∃ d, m.Adj c d ∧ m.rank d = q := by
  simp only [Mesh.selectCells, select, List.mem_filter, decide_eq_true_eq, ne_nil_iff, mem_conn hw]
  constructor
  · rintro ⟨hc, h1, ⟨r, d, h2, h3, h4, h5⟩, h6⟩
    have hne : m.rank c ≠ q := ((C35_ghost hw q c).1 h1).1
    have hr : r = q := h5.resolve_left hne
    refine ⟨hc, ?_, d, h2, h3.trans hr⟩
    rcases h6 with ⟨d', g1, g2, g3, g4⟩ | h6
    · exact absurd (g4.resolve_left hne) hpq
    · exact h6.symm
  · rintro ⟨hc, h1, d, h2, h3⟩
    refine ⟨hc, ?_, ⟨q, d, h2, h3, ?_, Or.inr rfl⟩, Or.inr h1.symm⟩
    · rw [C35_ghost hw]
      exact ⟨by rw [h1]; exact hpq, Or.inl ⟨d, h2, h3⟩⟩
    · rw [h1]; exact hpq

theorem select_congr {m : Mesh} {p q p' q' : Nat} {t t' : Int} (h : ∀ c, c ∈ m.selectCells p t q ↔ c ∈ m.selectCells p' t' q') :
    m.selectCells p t q = m.selectCells p' t' q' := by
  unfold Mesh.selectCells select at *
  apply List.filter_congr
  intro c hc
  have := h c
  simp only [List.mem_filter, hc, true_and] at this
  exact Bool.eq_iff_iff.2 this

/-- C36, forward: the message from `p`, read by `q`, gives each element of `p` with a neighbour on `q`, with all its
sub-entities, the data gathered on `p`, and nothing is left over. `items` is any way to list sub-entities, `gather` any
data; `q` reads for the elements that are its ghosts. -/
theorem C36_forward {m : Mesh} (hw : m.WF) {p q : Nat} (hpq : p ≠ q) {Item : Type} (items : Nat → List Item)
    (gather : Item → List Nat) :
    unpack items (m.selectCells q 2 p) (pack items gather (m.selectCells p 0 q)) =
      some (((m.selectCells q 2 p).flatMap items).map fun i => (i, gather i), []) := by
  have h : m.selectCells p 0 q = m.selectCells q 2 p :=
    select_congr fun c => (C36_packed hw hpq c).trans (C36_unpacked hw hpq c).symm
  rw [h]
  exact unpack_pack items gather _

/-- C36, backward: ghosts are packed, and read for the interior elements. -/
theorem C36_backward {m : Mesh} (hw : m.WF) {p q : Nat} (hpq : p ≠ q) {Item : Type} (items : Nat → List Item)
    (gather : Item → List Nat) :
    unpack items (m.selectCells q 0 p) (pack items gather (m.selectCells p 2 q)) =
      some (((m.selectCells q 0 p).flatMap items).map fun i => (i, gather i), []) := by
  have h : m.selectCells p 2 q = m.selectCells q 0 p :=
    select_congr fun c => (C36_unpacked hw hpq.symm c).trans (C36_packed hw hpq.symm c).symm
  rw [h]
  exact unpack_pack items gather _

/-- C36, all to all: interior elements and then ghosts are packed; ghosts and then interior elements are read. -/
theorem C36_all {m : Mesh} (hw : m.WF) {p q : Nat} (hpq : p ≠ q) {Item : Type} (items : Nat → List Item)
    (gather : Item → List Nat) :
    unpack items (m.selectCells q 2 p ++ m.selectCells q 0 p) (pack items gather (m.selectCells p 0 q ++ m.selectCells p 2 q)) =
      some (((m.selectCells q 2 p ++ m.selectCells q 0 p).flatMap items).map fun i => (i, gather i), []) := by
  have h1 : m.selectCells p 2 q = m.selectCells q 0 p :=
    select_congr fun c => (C36_unpacked hw hpq.symm c).trans (C36_packed hw hpq.symm c).symm
  have h2 : m.selectCells p 0 q = m.selectCells q 2 p :=
    select_congr fun c => (C36_packed hw hpq c).trans (C36_unpacked hw hpq c).symm
  rw [h1, h2]
  exact unpack_pack items gather _

/-- C115, completeness in a grid without interface vertices: every ghost gets data from its owner, which is a link, and
from no other process. Missing: ghosts that are due to the interface, see `C115_interface_false`. -/
theorem C115_complete_partial {m : Mesh} (hw : m.WF) (hj : m.joints = []) {q c : Nat} (hc : c ∈ m.cells)
    (h : (compute m q).part c = 2) :
    m.rank c ∈ (compute m q).links ∧ ∀ r ∈ (compute m q).links, (c ∈ m.selectCells q 2 r ↔ r = m.rank c) := by
  obtain ⟨hne, d, h1, h2⟩ := (C114_ghost_partial hw hj q c).1 h
  refine ⟨?_, ?_⟩
  · rw [mem_links hw]
    exact ⟨hne, Or.inl ⟨d, c, Or.symm h1, h2, rfl⟩⟩
  · intro r hr
    have hrq : r ≠ q := fun h => C35_links_proper hw q (h ▸ hr)
    constructor
    · intro h3
      exact ((C36_unpacked hw hrq c).1 h3).2.1.symm
    · rintro rfl
      exact (C36_unpacked hw hne c).2 ⟨hc, rfl, d, h1, h2⟩

/-- Messages go only between linked processes: if there is something to pack or to unpack, the other process is a link. -/
theorem C36_linked {m : Mesh} (hw : m.WF) {p q : Nat} (hpq : p ≠ q) {c : Nat}
    (h : c ∈ m.selectCells p 0 q ∨ c ∈ m.selectCells p 2 q) : q ∈ (compute m p).links := by
  rw [mem_links hw]
  refine ⟨hpq.symm, Or.inl ?_⟩
  rcases h with h | h
  · obtain ⟨_, h1, d, h2, h3⟩ := (C36_packed hw hpq c).1 h
    exact ⟨c, d, h2, h1, h3⟩
  · obtain ⟨_, h1, d, h2, h3⟩ := (C36_unpacked hw hpq.symm c).1 h
    exact ⟨d, c, Or.symm h2, h3, h1⟩

/-- With an interface C115 is false: cell 3 of `bend` is a ghost on process 0, but nothing is read for it. -/
theorem C115_interface_false : ¬ ∀ (m : Mesh), m.WF → ∀ q, ∀ c ∈ m.cells, (compute m q).part c = 2 →
    ∃ r ∈ (compute m q).links, c ∈ m.selectCells q 2 r := by
  intro h
  obtain ⟨r, hr, h1⟩ := h bend bend_wf 0 3 (by decide) (by decide)
  have hl : (compute bend 0).links = [1] := by decide
  rw [hl, List.mem_singleton] at hr
  subst hr
  revert h1
  decide

example : bend.selectCells 0 0 1 = [1] ∧ bend.selectCells 1 2 0 = [1] ∧ bend.selectCells 1 0 0 = [2] := by decide

/-! ## C37: communication in the interface grid -/

theorem mem_iconn {m : Mesh} (hw : m.WF) (p : Nat) {e : Nat} (he : e ∈ m.ielems) (r : Nat) : r ∈ (compute m p).iconn e ↔
    ((m.irank e = p ∧ r ≠ p ∧ m.Across e r) ∨ (m.irank e ≠ p ∧ m.Across e p ∧ r = m.irank e)) ∨
    ∃ j ∈ m.joints, e ∈ j ∧ (∃ e' ∈ j, m.irank e' = p) ∧ (∃ e' ∈ j, m.irank e' ≠ p) ∧ (∃ e' ∈ j, m.irank e' = r) ∧ r ≠ m.irank e := by
  rw [(c_inv hw p).conn, (g_inv hw p).rest.2.1, (i_inv m p).conn e he]
  rfl

/-- What process `p` packs for process `q`: its interface elements that are ghosts on `q`. -/
theorem C37_packed {m : Mesh} (hw : m.WF) {p q : Nat} (hpq : p ≠ q) (e : Nat) :
    e ∈ m.selectIElems p 0 q ↔ e ∈ m.ielems ∧ m.rank (m.ins e) = p ∧ (compute m q).ipart e = 2 := by
  simp only [Mesh.selectIElems, select, List.mem_filter, decide_eq_true_eq]
  constructor
  · rintro ⟨he, h1, _, h2⟩
    rw [C35_interface_interior hw p he] at h1
    refine ⟨he, h1, ?_⟩
    rw [C35_interface_ghost hw q he]
    refine ⟨by rw [h1]; exact hpq, ?_⟩
    rcases h2 with h2 | h2
    · rw [mem_iconn hw p he] at h2
      rcases h2 with (⟨_, _, h3⟩ | ⟨h3, _⟩) | ⟨j, hj, h3, _, _, h4, _⟩
      · exact Or.inl h3
      · exact absurd h1 h3
      · exact Or.inr ⟨j, hj, h3, h4⟩
    · exact absurd (h1.symm.trans h2.symm) hpq
  · rintro ⟨he, h1, h2⟩
    rw [C35_interface_ghost hw q he] at h2
    have hq : q ∈ (compute m p).iconn e := by
      rw [mem_iconn hw p he]
      rcases h2.2 with h3 | ⟨j, hj, h3, e', he', h4⟩
      · exact Or.inl (Or.inl ⟨h1, hpq.symm, h3⟩)
      · exact Or.inr ⟨j, hj, h3, ⟨e, h3, h1⟩, ⟨e', he', by rw [Mesh.irank, h4]; exact hpq.symm⟩, ⟨e', he', h4⟩,
          by rw [Mesh.irank, h1]; exact hpq.symm⟩
    exact ⟨he, (C35_interface_interior hw p he).2 h1, ne_nil_iff.2 ⟨q, hq⟩, Or.inl hq⟩

/-- What process `q` unpacks from process `p`: its ghosts owned by `p`, and ghosts of a third process at a vertex where `p`
owns an element, too. -/
theorem C37_unpacked {m : Mesh} (hw : m.WF) (p q e : Nat) :
    e ∈ m.selectIElems q 2 p ↔ e ∈ m.ielems ∧ (compute m q).ipart e = 2 ∧ (m.rank (m.ins e) = p ∨
      ∃ j ∈ m.joints, e ∈ j ∧ (∃ e' ∈ j, m.rank (m.ins e') = q) ∧ ∃ e' ∈ j, m.rank (m.ins e') = p) := by
  simp only [Mesh.selectIElems, select, List.mem_filter, decide_eq_true_eq]
  constructor
  · rintro ⟨he, h1, _, h2⟩
    refine ⟨he, h1, ?_⟩
    rcases h2 with h2 | h2
    · rw [mem_iconn hw q he] at h2
      rcases h2 with (⟨h3, _⟩ | ⟨_, _, h3⟩) | ⟨j, hj, h3, h4, _, h5, _⟩
      · exact absurd h3 ((C35_interface_ghost hw q he).1 h1).1
      · exact Or.inl h3.symm
      · exact Or.inr ⟨j, hj, h3, h4, h5⟩
    · exact Or.inl h2.symm
  · rintro ⟨he, h1, h2⟩
    have h3 := (C35_interface_ghost hw q he).1 h1
    refine ⟨he, h1, ?_, ?_⟩
    · rw [ne_nil_iff]
      rcases h3.2 with h4 | ⟨j, hj, h4, e', he', h5⟩
      · exact ⟨m.irank e, (mem_iconn hw q he _).2 (Or.inl (Or.inr ⟨h3.1, h4, rfl⟩))⟩
      · exact ⟨q, (mem_iconn hw q he _).2 (Or.inr ⟨j, hj, h4, ⟨e', he', h5⟩, ⟨e, h4, h3.1⟩, ⟨e', he', h5⟩, fun h => h3.1 h.symm⟩)⟩
    · rcases h2 with h2 | ⟨j, hj, h4, h5, h6⟩
      · exact Or.inr h2.symm
      · by_cases h7 : m.rank (m.ins e) = p
        · exact Or.inr h7.symm
        · exact Or.inl ((mem_iconn hw q he p).2 (Or.inr ⟨j, hj, h4, h5, ⟨e, h4, h3.1⟩, h6, fun h => h7 h.symm⟩))

/-- At most two processes own interface elements at any vertex. -/
def Mesh.TwoRanks (m : Mesh) : Prop := ∀ j ∈ m.joints, ∀ e1 ∈ j, ∀ e2 ∈ j, ∀ e3 ∈ j,
  m.rank (m.ins e1) = m.rank (m.ins e2) ∨ m.rank (m.ins e1) = m.rank (m.ins e3) ∨ m.rank (m.ins e2) = m.rank (m.ins e3)

theorem iselect_congr {m : Mesh} {p q p' q' : Nat} {t t' : Int} (h : ∀ c, c ∈ m.selectIElems p t q ↔ c ∈ m.selectIElems p' t' q') :
    m.selectIElems p t q = m.selectIElems p' t' q' := by
  unfold Mesh.selectIElems select at *
  apply List.filter_congr
  intro c hc
  have := h c
  simp only [List.mem_filter, hc, true_and] at this
  exact Bool.eq_iff_iff.2 this

theorem C37_same {m : Mesh} (hw : m.WF) (h2 : m.TwoRanks) {p q : Nat} (hpq : p ≠ q) :
    m.selectIElems p 0 q = m.selectIElems q 2 p := by
  apply iselect_congr
  intro e
  rw [C37_packed hw hpq, C37_unpacked hw p q]
  constructor
  · rintro ⟨he, h3, h4⟩
    exact ⟨he, h4, Or.inl h3⟩
  · rintro ⟨he, h3, h4⟩
    refine ⟨he, ?_, h3⟩
    rcases h4 with h4 | ⟨j, hj, h4, ⟨e1, he1, h5⟩, ⟨e2, he2, h6⟩⟩
    · exact h4
    · have hne := ((C35_interface_ghost hw q he).1 h3).1
      rcases h2 j hj e h4 e1 he1 e2 he2 with h7 | h7 | h7
      · exact absurd (h7.trans h5) hne
      · exact h7.trans h6
      · exact absurd (h6.symm.trans (h7.symm.trans h5)) hpq

/-- C37 where at most two processes meet at each interface vertex: each message is read completely, for the same elements.
Vertices where three processes meet: see `C154_junction_false`. -/
theorem C37_forward {m : Mesh} (hw : m.WF) (h2 : m.TwoRanks) {p q : Nat} (hpq : p ≠ q) {Item : Type}
    (items : Nat → List Item) (gather : Item → List Nat) :
    unpack items (m.selectIElems q 2 p) (pack items gather (m.selectIElems p 0 q)) =
      some (((m.selectIElems q 2 p).flatMap items).map fun i => (i, gather i), []) := by
  rw [C37_same hw h2 hpq]
  exact unpack_pack items gather _

/-- The same for a backward communication. -/
theorem C37_backward {m : Mesh} (hw : m.WF) (h2 : m.TwoRanks) {p q : Nat} (hpq : p ≠ q) {Item : Type}
    (items : Nat → List Item) (gather : Item → List Nat) :
    unpack items (m.selectIElems q 0 p) (pack items gather (m.selectIElems p 2 q)) =
      some (((m.selectIElems q 0 p).flatMap items).map fun i => (i, gather i), []) := by
  rw [C37_same hw h2 hpq.symm]
  exact unpack_pack items gather _

/-- The same for a communication from all to all. -/
theorem C37_all {m : Mesh} (hw : m.WF) (h2 : m.TwoRanks) {p q : Nat} (hpq : p ≠ q) {Item : Type}
    (items : Nat → List Item) (gather : Item → List Nat) :
    unpack items (m.selectIElems q 2 p ++ m.selectIElems q 0 p) (pack items gather (m.selectIElems p 0 q ++ m.selectIElems p 2 q)) =
      some (((m.selectIElems q 2 p ++ m.selectIElems q 0 p).flatMap items).map fun i => (i, gather i), []) := by
  rw [C37_same hw h2 hpq, ← C37_same hw h2 hpq.symm]
  exact unpack_pack items gather _

/-- C37, completeness: each ghost of the interface gets data from its owner, which is a link, and, if at most two
processes meet at a vertex, from no other process. Here the interface vertices do no harm, unlike for C36. -/
theorem C37_complete {m : Mesh} (hw : m.WF) {q e : Nat} (he : e ∈ m.ielems) (h : (compute m q).ipart e = 2) :
    m.rank (m.ins e) ∈ (compute m q).links ∧ e ∈ m.selectIElems q 2 (m.rank (m.ins e)) ∧
      (m.TwoRanks → ∀ r ∈ (compute m q).links, e ∈ m.selectIElems q 2 r → r = m.rank (m.ins e)) := by
  have h3 := (C35_interface_ghost hw q he).1 h
  refine ⟨?_, ?_, ?_⟩
  · rw [mem_links hw]
    refine ⟨h3.1, ?_⟩
    rcases h3.2 with ⟨o, ho, hr⟩ | ⟨j, hj, h4, h5⟩
    · exact Or.inl ⟨o, m.ins e, Or.symm (hw.sides e he o ho), hr, rfl⟩
    · exact Or.inr ⟨j, hj, h5, e, h4, rfl⟩
  · exact (C37_unpacked hw _ q e).2 ⟨he, h, Or.inl rfl⟩
  · intro h2 r hr hsel
    have hrq : r ≠ q := fun h => C35_links_proper hw q (h ▸ hr)
    rw [← C37_same hw h2 hrq, C37_packed hw hrq] at hsel
    exact hsel.2.1.symm

/-- A vertex in which three interface elements of three processes meet; each lies between a cell of its process and a cell
of the next one. -/
def junction : Mesh where
  cells := [0, 1, 2]
  facets := [(0, some 1), (1, some 2), (2, some 0)]
  rank := fun c => c
  ielems := [10, 11, 12]
  ins := fun e => e - 10
  out := fun e => if e = 10 then some 1 else if e = 11 then some 2 else some 0
  joints := [[10, 11, 12], [10], [11], [12]]

theorem junction_wf : junction.WF := by
  constructor
  · intro e he o ho
    simp only [junction, List.mem_cons, List.not_mem_nil, or_false] at he
    rcases he with rfl | rfl | rfl <;> simp [junction] at ho <;> subst ho <;> simp [AdjIn, junction]
  · decide

/-- C154 is false at a junction of three processes: process 0 sends the data of element 10 to process 1 (here 100), but
process 1 reads the message for the elements 10 and 12 and runs over its end; and what process 2 sends for element 12 is
scattered to element 10. -/
theorem C154_junction_false :
    junction.selectIElems 0 0 1 = [10] ∧ junction.selectIElems 1 2 0 = [10, 12] ∧
    unpack (fun e => [e]) (junction.selectIElems 1 2 0) (pack (fun e => [e]) (fun e => [10 * e]) (junction.selectIElems 0 0 1)) = none ∧
    unpack (fun e => [e]) ((junction.selectIElems 1 2 2).take 1)
      (pack (fun e => [e]) (fun e => [10 * e]) (junction.selectIElems 2 0 1)) = some ([(10, [120])], []) := by decide

theorem C154_false : ¬ ∀ (m : Mesh), m.WF → ∀ p q, p ≠ q → ∀ (gather : Nat → List Nat),
    unpack (fun e => [e]) (m.selectIElems q 2 p) (pack (fun e => [e]) gather (m.selectIElems p 0 q)) =
      some (((m.selectIElems q 2 p).flatMap fun e => [e]).map fun i => (i, gather i), []) := by
  intro h
  have := h junction junction_wf 0 1 (by decide) (fun e => [10 * e])
  rw [C154_junction_false.2.2.1] at this
  exact absurd this (by simp)

/-- Two processes meet at the bend; the messages are read. -/
example : bend.TwoRanks ∧ bend.selectIElems 0 0 1 = [10] ∧ bend.selectIElems 1 2 0 = [10] := by
  refine ⟨?_, by decide, by decide⟩
  unfold Mesh.TwoRanks
  decide

end Verif.Parallel
