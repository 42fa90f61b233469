import Verif.Factory.Props

/-!
# Triangulations as data

CGAL's triangulation data structure is represented by the list of its cells, infinite ones included; a cell handle is
the position in this list. A vertex is represented by its id, the infinite vertex by `none`.
-/

namespace Verif.Tri

open Factory

variable {d : Nat}

/-- The part of the triangulation the grid reads. -/
structure Tri (d : Nat) where
  cells : List (Fin (d + 1) → Option Nat)
  nbr : Nat → Fin (d + 1) → Option Nat

/-- The cell does not contain the infinite vertex. -/
def finite (c : Fin (d + 1) → Option Nat) : Bool := decide (∀ i, c i ≠ none)

/-- The finite cells with their handles in the order of `finite_faces_begin()` / `finite_cells_begin()`. -/
def Tri.finiteCells (T : Tri d) : List Nat := (List.range T.cells.length).filter fun h =>
  match T.cells[h]? with
  | some c => finite c
  | none => false

/-- The facet of cell `h` opposite to its vertex `i`, as the set of its vertices. -/
def Tri.facet (T : Tri d) (h : Nat) (i : Fin (d + 1)) : Finset (Option Nat) :=
  match T.cells[h]? with
  | some c => facetOf c i
  | none => ∅

/-- What CGAL guarantees (and what `C13` proves of the triangulations made by the explicit factory): cells have
different vertices, neighbours are exactly the other cells with the same facet, and each facet of a finite cell has a
neighbour. -/
structure Tri.Valid (T : Tri d) : Prop where
  inj : ∀ c ∈ T.cells, Function.Injective c
  nbr_iff : ∀ h i c, T.cells[h]? = some c → ∀ h', T.nbr h i = some h' ↔
    h' ≠ h ∧ ∃ c' i', T.cells[h']? = some c' ∧ facetOf c' i' = facetOf c i
  nbr_total : ∀ h i c, T.cells[h]? = some c → finite c → ∃ h', T.nbr h i = some h'

/-- The triangulation built by the explicit grid factory. -/
def ofTds (t : Tds d) : Tri d := { cells := t.cells, nbr := fun h i => t.st.nbr (h, i) }

/-- The explicit grid factory builds a valid triangulation from every mesh. -/
theorem ofTds_valid {S : Scheme d} (hS : S.Valid) {E : List (Fin (d + 1) → Nat)} (hE : Mesh E)
    (order : List (Finset Nat × Slot d)) (ho : order.Perm (createElements S E).st.fmap) :
    (ofTds (buildTds S E order)).Valid := by
  obtain ⟨h1, h2, h3⟩ := hE.parts
  obtain ⟨hcells, hinf⟩ := cells_desc hS hE order ho
  refine ⟨?_, ?_, ?_⟩
  · intro c hc
    simp only [ofTds] at hc
    rw [hcells] at hc
    rcases List.mem_append.1 hc with hc | hc
    · obtain ⟨v, hv, rfl⟩ := List.mem_map.1 hc
      exact fun i j hij => h1 v hv (Option.some.inj hij)
    · obtain ⟨e, he, rfl⟩ := List.mem_map.1 hc
      obtain ⟨v, hv, hcell⟩ := hinf e he
      rw [hcell]
      have hi := hS.infInj v e.2.2 (h1.get hv)
      intro i j hij
      induction i using Fin.lastCases with
      | last =>
        induction j using Fin.lastCases with
        | last => rfl
        | cast j => rw [Fin.snoc_last, Fin.snoc_castSucc] at hij; simp at hij
      | cast i =>
        induction j using Fin.lastCases with
        | last => rw [Fin.snoc_last, Fin.snoc_castSucc] at hij; simp at hij
        | cast j =>
          rw [Fin.snoc_castSucc, Fin.snoc_castSucc] at hij
          rw [hi (Option.some.inj hij)]
  · intro h i c hc h'
    exact connectivity hS h1 h2 h3 order ho h i c hc h'
  · intro h i c hc hfin
    simp only [ofTds] at hc ⊢
    by_cases hlt : h < E.length
    · obtain ⟨v, hv⟩ : ∃ v, E[h]? = some v := ⟨_, List.getElem?_eq_getElem hlt⟩
      obtain ⟨b1, b2⟩ := boundary_facets hS hE order ho h v hv i
      have hpos : 0 < mult E (facetOf v i) := by
        unfold mult
        rw [List.countP_pos_iff]
        exact ⟨v, List.mem_of_getElem? hv, by simp⟩
      have hle := hE.conforming (facetOf v i)
      rcases Nat.lt_or_ge (mult E (facetOf v i)) 2 with h' | h'
      · obtain ⟨c', _, hc', _⟩ := b1 (by omega)
        exact ⟨c', hc'⟩
      · obtain ⟨c', _, hc', _⟩ := b2 (by omega)
        exact ⟨c', hc'⟩
    · exfalso
      rw [hcells, List.getElem?_append_right (by simpa using Nat.le_of_not_lt hlt), List.getElem?_map] at hc
      cases he : order[h - (E.map fun v i => some (v i)).length]? with
      | none => rw [he] at hc; simp at hc
      | some e =>
        rw [he] at hc
        simp only [Option.map_some, Option.some.injEq] at hc
        obtain ⟨v, -, hcell⟩ := hinf e (List.mem_of_getElem? he)
        rw [hcell] at hc
        simp only [finite, decide_eq_true_eq] at hfin
        apply hfin (Fin.last d)
        rw [← hc, Fin.snoc_last]

theorem facetOf_inj' {c : Fin (d + 1) → Option Nat} (hc : Function.Injective c) {i j : Fin (d + 1)}
    (h : facetOf c i = facetOf c j) : i = j := facetOf_inj hc h

theorem mem_finiteCells (T : Tri d) (h : Nat) :
    h ∈ T.finiteCells ↔ ∃ c, T.cells[h]? = some c ∧ finite c = true := by
  unfold Tri.finiteCells
  rw [List.mem_filter, List.mem_range]
  constructor
  · rintro ⟨h1, h2⟩
    rw [List.getElem?_eq_getElem h1] at h2 ⊢
    exact ⟨_, rfl, h2⟩
  · rintro ⟨c, hc, hf⟩
    rw [hc]
    exact ⟨(List.getElem?_eq_some_iff.1 hc).1, hf⟩

theorem nodup_finiteCells (T : Tri d) : T.finiteCells.Nodup := List.Nodup.filter _ List.nodup_range

theorem facet_eq {T : Tri d} {h : Nat} {c} (hc : T.cells[h]? = some c) (i : Fin (d + 1)) : T.facet h i = facetOf c i := by
  unfold Tri.facet; rw [hc]

/-- In a valid triangulation a facet of a cell belongs to that cell and the neighbour only. -/
theorem Tri.Valid.two {T : Tri d} (hT : T.Valid) {h : Nat} {i : Fin (d + 1)} {c} (hc : T.cells[h]? = some c) {h1 : Nat}
    (hn : T.nbr h i = some h1) {h2 : Nat} {i2 : Fin (d + 1)} {c2} (hc2 : T.cells[h2]? = some c2)
    (hf : facetOf c2 i2 = facetOf c i) : (h2 = h ∧ i2 = i) ∨ h2 = h1 := by
  by_cases he : h2 = h
  · left
    refine ⟨he, ?_⟩
    subst he
    rw [hc] at hc2
    cases hc2
    exact facetOf_inj' (hT.inj _ (List.mem_of_getElem? hc)) hf
  · right
    have := (hT.nbr_iff h i c hc h2).2 ⟨he, c2, i2, hc2, hf⟩
    rw [hn] at this
    exact (Option.some.inj this).symm

end Verif.Tri
