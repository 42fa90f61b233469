import Verif.InterfaceGeo.Model

/-!
# Geometries of intersections of the interface grid

**C155** An interface intersection, seen from the inside and from the outside element, is the same piece: mapping the local geometry into either
element and then into the world gives the geometry of the intersection, and `indexInOutside` is the number of the common facet.
-/

namespace Verif.InterfaceGeo

open RefElem InterfaceIndexSet

theorem sub_eq {m : Nat} (hm : m = 1 ∨ m = 2) (e : List Nat) (i : Nat) : subEntity m e i = facetIds (m + 1) e i := by
  rcases hm with rfl | rfl
  · unfold subEntity facetIds
    simp only [if_true]
    cases (sortIds e)[i]? <;> rfl
  · rfl

theorem facetIds_eq {m : Nat} (hm : m = 1 ∨ m = 2) {e : List Nat} (hl : e.length = m + 1) {i : Nat} (hi : i < m + 1) :
    facetIds (m + 1) e i = some (facetSpec (m + 1) e i) := by
  have hs : (sortIds e).length = m + 1 := by rw [(sortIds_perm e).length_eq, hl]
  unfold facetIds facetSpec
  generalize sortIds e = s at hs ⊢
  rcases hm with rfl | rfl
  · match s, hs with
    | [a, b], _ =>
      obtain rfl | rfl : i = 0 ∨ i = 1 := by omega
      · rfl
      · rfl
  · match s, hs with
    | [a, b, c], _ =>
      obtain rfl | rfl | rfl : i = 0 ∨ i = 1 ∨ i = 2 := by omega
      · rfl
      · rfl
      · rfl

theorem facetSpec_strict {d : Nat} {e : List Nat} (h : e.Nodup) (i : Nat) : (facetSpec d e i).Pairwise (· < ·) :=
  (sortIds_strict h).sublist (List.eraseIdx_sublist ..)

theorem facetSpec_length {d : Nat} {e : List Nat} (hl : e.length = d) {i : Nat} (hi : i < d) : (facetSpec d e i).length = d - 1 := by
  have hs : (sortIds e).length = d := by rw [(sortIds_perm e).length_eq, hl]
  unfold facetSpec
  rw [List.length_eraseIdx_of_lt (by omega), hs]

theorem facetEquals_iff {m : Nat} (hm : m = 1 ∨ m = 2) {f g : List Nat} (hf : f.Pairwise (· < ·)) (hg : g.Pairwise (· < ·))
    (lf : f.length = m) (lg : g.length = m) : facetEquals g f = true ↔ g = f := by
  rcases hm with rfl | rfl
  · match f, g, lf, lg with
    | [a], [b], _, _ => simp [facetEquals]
  · match f, g, lf, lg with
    | [a, b], [c, e], _, _ =>
      simp only [List.pairwise_cons, List.mem_singleton, forall_eq] at hf hg
      have h1 := hf.1
      have h2 := hg.1
      simp only [facetEquals, Bool.or_eq_true, Bool.and_eq_true, beq_iff_eq, List.cons.injEq, and_true]
      omega

/-- Facet `i` of `e` has a number in any element that contains it. -/
theorem facet_number {d : Nat} {e o : List Nat} (he : e.Nodup) (ho : o.Nodup) (le : e.length = d) (lo : o.length = d) {i : Nat} (hi : i < d)
    (hsub : facetSpec d e i ⊆ o) : ∃ j < d, facetSpec d o j = facetSpec d e i := by
  have hnd : (facetSpec d e i).Nodup := (facetSpec_strict he i).imp (fun h => Nat.ne_of_lt h)
  obtain ⟨y, hy⟩ := exists_perm_cons hnd hsub (by rw [facetSpec_length le hi]; omega)
  have hp : (sortIds o).Perm (y :: facetSpec d e i) := (sortIds_perm o).trans hy
  have hm : y ∈ sortIds o := hp.mem_iff.2 (List.mem_cons_self ..)
  obtain ⟨k, hk, rfl⟩ := List.getElem_of_mem hm
  have lk : (sortIds o).length = d := by rw [(sortIds_perm o).length_eq, lo]
  refine ⟨d - 1 - k, by omega, ?_⟩
  have e1 : d - 1 - (d - 1 - k) = k := by omega
  have hst : ((sortIds o).eraseIdx k).Pairwise (· < ·) := (sortIds_strict ho).sublist (List.eraseIdx_sublist ..)
  have hperm : ((sortIds o).eraseIdx k).Perm (facetSpec d e i) := by
    have := (List.getElem_cons_eraseIdx_perm hk).trans hp
    exact (List.perm_cons _).1 this
  unfold facetSpec at *
  rw [e1]
  exact hperm.eq_of_pairwise (fun a b _ _ h1 h2 => absurd h1 (Nat.lt_asymm h2)) hst (facetSpec_strict he i)

/-- `indexInOutside` finds the number of the common facet. -/
theorem indexInOutside_spec {m : Nat} (hm : m = 1 ∨ m = 2) {e o : List Nat} (he : e.Nodup) (ho : o.Nodup) (le : e.length = m + 1)
    (lo : o.length = m + 1) {i : Nat} (hi : i < m + 1) (hsub : facetSpec (m + 1) e i ⊆ o) :
    ∃ j < m + 1, indexInOutside m e i o = some j ∧ facetSpec (m + 1) o j = facetSpec (m + 1) e i := by
  obtain ⟨j0, hj0, h0⟩ := facet_number he ho le lo hi hsub
  have key : ∀ j < m + 1, (match subEntity m o j with
      | some g => facetEquals g (facetSpec (m + 1) e i)
      | none => false) = true ↔ facetSpec (m + 1) o j = facetSpec (m + 1) e i := by
    intro j hj
    rw [sub_eq hm, facetIds_eq hm lo hj]
    exact facetEquals_iff hm (facetSpec_strict he i) (facetSpec_strict ho j) (facetSpec_length le hi) (facetSpec_length lo hj)
  unfold indexInOutside
  rw [sub_eq hm, facetIds_eq hm le hi, Option.bind_some]
  cases hf : (List.range (m + 1)).find? fun j => match subEntity m o j with
      | some g => facetEquals g (facetSpec (m + 1) e i)
      | none => false with
  | none =>
    rw [List.find?_eq_none] at hf
    exact absurd ((key j0 hj0).2 h0) (hf j0 (List.mem_range.2 hj0))
  | some j =>
    have hj : j < m + 1 := List.mem_range.1 (List.mem_of_find?_eq_some hf)
    have := List.find?_some hf
    exact ⟨j, hj, rfl, (key j hj).1 this⟩

section Geometry

variable {K V : Type*} [Field K] [AddCommGroup V] [Module K V]

theorem cornersOf_some {n : Nat} (pt : Nat → V) {l : List Nat} (h : l.length = n) :
    cornersOf n pt l = some fun k => pt (l[k.val]'(by rw [h]; exact k.isLt)) := by
  unfold cornersOf
  rw [dif_pos h]

theorem swapById_of_strict {f : List Nat} (hf : f.Pairwise (· < ·)) : swapById f = f := by
  unfold swapById
  split
  · simp only [List.pairwise_cons, List.mem_singleton, forall_eq] at hf
    rw [if_neg (by omega)]
  · rfl

/-- The corners of an intersection are the positions of the vertices of the facet. -/
theorem intersectionCorners_eq {m : Nat} (hm : m = 1 ∨ m = 2) (pt : Nat → V) {e : List Nat} (he : e.Nodup) (le : e.length = m + 1) {i : Nat}
    (hi : i < m + 1) : intersectionCorners m pt e i = cornersOf m pt (facetSpec (m + 1) e i) := by
  unfold intersectionCorners
  rw [facetIds_eq hm le hi, Option.bind_some, swapById_of_strict (facetSpec_strict he i)]

theorem conform1 (pt : Nat → V) {e : List Nat} (le : e.length = 2) {i : Nat} (hi : i < 2) :
    ∃ c q, elementCorners 1 pt e = some c ∧ cornersOf 1 pt (facetSpec 2 e i) = some q ∧
      ∀ x : Fin 0 → K, affineGlobal c (affineGlobal (localCorners1 K i) x) = affineGlobal q x := by
  have hs : (sortIds e).length = 2 := by rw [(sortIds_perm e).length_eq, le]
  unfold elementCorners facetSpec
  generalize sortIds e = s at hs ⊢
  match s, hs with
  | [a, b], _ =>
    have hi : i = 0 ∨ i = 1 := by omega
    rcases hi with rfl | rfl
    · refine ⟨_, _, rfl, rfl, fun x => ?_⟩
      have : localCorners1 K 0 = fun k => refCorner K ((fun _ => 0 : Fin 1 → Fin 2) k) := by
        funext k j
        simp [localCorners1, refCorner]
      rw [this, affineGlobal_comp]
      simp [affineGlobal]
    · refine ⟨_, _, rfl, rfl, fun x => ?_⟩
      have : localCorners1 K 1 = fun k => refCorner K ((fun _ => 1 : Fin 1 → Fin 2) k) := by
        funext k j
        have : j = 0 := Subsingleton.elim _ _
        subst this
        have h1 : (1 : Fin 2) = Fin.succ 0 := rfl
        simp only [localCorners1, refCorner, h1, Fin.cases_succ, Pi.single_eq_same, Nat.cast_one]
      rw [this, affineGlobal_comp]
      simp [affineGlobal]

theorem refCorner2 : refCorner K (d := 2) 0 = ![0, 0] ∧ refCorner K (d := 2) 1 = ![1, 0] ∧ refCorner K (d := 2) 2 = ![0, 1] := by
  refine ⟨?_, ?_, ?_⟩ <;> funext k <;> fin_cases k <;> rfl

theorem conform2 (pt : Nat → V) {e : List Nat} (le : e.length = 3) {i : Nat} (hi : i < 3) :
    ∃ c q, elementCorners 2 pt e = some c ∧ cornersOf 2 pt (facetSpec 3 e i) = some q ∧
      ∀ x : Fin 1 → K, affineGlobal c (affineGlobal (localCorners2 K i) x) = affineGlobal q x := by
  have hs : (sortIds e).length = 3 := by rw [(sortIds_perm e).length_eq, le]
  obtain ⟨r0, r1, r2⟩ := refCorner2 (K := K)
  unfold elementCorners facetSpec
  generalize sortIds e = s at hs ⊢
  match s, hs with
  | [a, b, c], _ =>
    have hi : i = 0 ∨ i = 1 ∨ i = 2 := by omega
    rcases hi with rfl | rfl | rfl
    · refine ⟨_, _, rfl, rfl, fun x => ?_⟩
      have : localCorners2 K 0 = fun k => refCorner K ((![0, 1] : Fin 2 → Fin 3) k) := by
        funext k
        fin_cases k <;> simp [localCorners2, r0, r1, r2]
      rw [this, affineGlobal_comp]
      simp [affineGlobal]
    · refine ⟨_, _, rfl, rfl, fun x => ?_⟩
      have : localCorners2 K 1 = fun k => refCorner K ((![0, 2] : Fin 2 → Fin 3) k) := by
        funext k
        fin_cases k <;> simp [localCorners2, r0, r1, r2]
      rw [this, affineGlobal_comp]
      simp [affineGlobal]
    · refine ⟨_, _, rfl, rfl, fun x => ?_⟩
      have : localCorners2 K 2 = fun k => refCorner K ((![1, 2] : Fin 2 → Fin 3) k) := by
        funext k
        fin_cases k <;> simp [localCorners2, r0, r1, r2]
      rw [this, affineGlobal_comp]
      simp [affineGlobal]

/-- **C155** (interface of a 2D grid) Every visited intersection of an interface element has a geometry, a local geometry in the inside element
and, unless it is on the boundary, an outside element with a local geometry; mapping either local geometry by the map of the element gives the
geometry of the intersection. The facet of the outside element with number `indexInOutside` has the vertices of the facet of the inside element with number
`indexInInside`. -/
theorem C155_conforming_2d (pt : Nat → V) {els : List (List Nat)} (hE : Elements 2 els) {s : State} (hs : update 2 els = some s)
    (order : List (Nat × Nat) → List (Nat × Nat)) (ho : ∀ l, (order l).Perm l) (incident : Nat → List (List Nat))
    (hinc : ∀ f ∈ els, ∀ v ∈ f, ∃ f' ∈ incident v, f'.Perm f) {e : List Nat} (he : e ∈ els) :
    ∃ l, Intersections 2 s order incident (fun _ => false) e l ∧ ∀ p ∈ l, ∃ c q, elementCorners 1 pt e = some c ∧
      intersectionCorners 1 pt e p.1 = some q ∧
      (∀ x : Fin 0 → K, affineGlobal c (affineGlobal (localCorners1 K p.1) x) = affineGlobal q x) ∧
      (¬ onBoundary 2 s e p.1 → ∃ o j c', outside 2 s order incident e p.1 p.2 = some o ∧ indexInOutside 1 e p.1 o = some j ∧
        j < 2 ∧ (sortIds o).eraseIdx (1 - j) = (sortIds e).eraseIdx (1 - p.1) ∧ elementCorners 1 pt o = some c' ∧
        ∀ x : Fin 0 → K, affineGlobal c' (affineGlobal (localCorners1 K j) x) = affineGlobal q x) := by
  obtain ⟨l, hl, -, hlt, -, h2, h3⟩ := C21_neighbours (Or.inl rfl) hE hs order ho incident hinc (fun _ => false) he rfl
  refine ⟨l, hl, fun p hp => ?_⟩
  have hp2 := hlt p hp
  obtain ⟨c, q, hc, hq, hx⟩ := conform1 (K := K) pt (hE.length e he) hp2
  refine ⟨c, q, hc, ?_, hx, fun hb => ?_⟩
  · rw [intersectionCorners_eq (Or.inl rfl) pt (hE.nodup e he) (hE.length e he) hp2, hq]
  · have hn : ∃ f, Neighbour 2 els e p.1 f := by
      by_contra hno
      exact hb (h3 p.1 hp2 hno).1
    obtain ⟨o, f, hout, hf, hof⟩ := (h2 p hp hn).2
    have hon : o.Nodup := hof.nodup_iff.2 (hE.nodup f hf.1)
    have hol : o.length = 2 := hof.length_eq.trans (hE.length f hf.1)
    obtain ⟨j, hj, hij, hfac⟩ := indexInOutside_spec (m := 1) (Or.inl rfl) (hE.nodup e he) hon (hE.length e he) hol hp2
      (fun v hv => hof.mem_iff.2 (hf.2.2 hv))
    obtain ⟨c', q', hc', hq', hx'⟩ := conform1 (K := K) pt hol hj
    rw [hfac, hq] at hq'
    cases hq'
    exact ⟨o, j, c', hout, hij, hj, hfac, hc', hx'⟩

/-- **C155** (interface of a 3D grid) -/
theorem C155_conforming_3d (pt : Nat → V) {els : List (List Nat)} (hE : Elements 3 els) {s : State} (hs : update 3 els = some s)
    (order : List (Nat × Nat) → List (Nat × Nat)) (ho : ∀ l, (order l).Perm l) (incident : Nat → List (List Nat))
    (hinc : ∀ f ∈ els, ∀ v ∈ f, ∃ f' ∈ incident v, f'.Perm f) {e : List Nat} (he : e ∈ els) :
    ∃ l, Intersections 3 s order incident (fun _ => false) e l ∧ ∀ p ∈ l, ∃ c q, elementCorners 2 pt e = some c ∧
      intersectionCorners 2 pt e p.1 = some q ∧
      (∀ x : Fin 1 → K, affineGlobal c (affineGlobal (localCorners2 K p.1) x) = affineGlobal q x) ∧
      (¬ onBoundary 3 s e p.1 → ∃ o j c', outside 3 s order incident e p.1 p.2 = some o ∧ indexInOutside 2 e p.1 o = some j ∧
        j < 3 ∧ (sortIds o).eraseIdx (2 - j) = (sortIds e).eraseIdx (2 - p.1) ∧ elementCorners 2 pt o = some c' ∧
        ∀ x : Fin 1 → K, affineGlobal c' (affineGlobal (localCorners2 K j) x) = affineGlobal q x) := by
  obtain ⟨l, hl, -, hlt, -, h2, h3⟩ := C21_neighbours (Or.inr rfl) hE hs order ho incident hinc (fun _ => false) he rfl
  refine ⟨l, hl, fun p hp => ?_⟩
  have hp2 := hlt p hp
  obtain ⟨c, q, hc, hq, hx⟩ := conform2 (K := K) pt (hE.length e he) hp2
  refine ⟨c, q, hc, ?_, hx, fun hb => ?_⟩
  · rw [intersectionCorners_eq (Or.inr rfl) pt (hE.nodup e he) (hE.length e he) hp2, hq]
  · have hn : ∃ f, Neighbour 3 els e p.1 f := by
      by_contra hno
      exact hb (h3 p.1 hp2 hno).1
    obtain ⟨o, f, hout, hf, hof⟩ := (h2 p hp hn).2
    have hon : o.Nodup := hof.nodup_iff.2 (hE.nodup f hf.1)
    have hol : o.length = 3 := hof.length_eq.trans (hE.length f hf.1)
    obtain ⟨j, hj, hij, hfac⟩ := indexInOutside_spec (m := 2) (Or.inr rfl) (hE.nodup e he) hon (hE.length e he) hol hp2
      (fun v hv => hof.mem_iff.2 (hf.2.2 hv))
    obtain ⟨c', q', hc', hq', hx'⟩ := conform2 (K := K) pt hol hj
    rw [hfac, hq] at hq'
    cases hq'
    exact ⟨o, j, c', hout, hij, hj, hfac, hc', hx'⟩

/-! A junction of three segments, and two triangles with a common edge. -/

example : Elements 2 exStar ∧ indexInOutside 1 [4, 1] 1 [9, 4] = some 0 ∧
    intersectionCorners 1 (fun v => (v : ℤ)) [4, 1] 1 = some (fun _ => 4) := by
  refine ⟨exStar_elements, by decide, ?_⟩
  decide

example : Elements 3 [[5, 2, 8], [2, 1, 5]] ∧ (update 3 [[5, 2, 8], [2, 1, 5]]).isSome = true ∧
    outside 3 ((update 3 [[5, 2, 8], [2, 1, 5]]).getD {}) id (fun _ => [[5, 2, 8], [5, 8, 6], [1, 5, 2]]) [5, 2, 8] 0 0 = some [1, 5, 2] ∧
    indexInOutside 2 [5, 2, 8] 0 [1, 5, 2] = some 2 ∧
    intersectionCorners 2 (fun v => (v : ℤ)) [5, 2, 8] 0 = some ![2, 5] := by
  refine ⟨⟨by decide, by decide, by decide⟩, by decide, by decide, by decide, by decide⟩

end Geometry

end Verif.InterfaceGeo
