import Verif.InterfaceGeo.Props

/-!
# Twists of intersections

dune-fem asks the grid for the twist of an intersection in its inside and outside element: a number that says how the corners of the intersection
are numbered relative to the corners of the facet of the reference element.
-/

namespace Verif.InterfaceGeo

open RefElem InterfaceIndexSet

/-- misc/twistutility.hh:12-21, 47-58 (mesh) and 24-33, 88-99 (interface): `twistInSelf` and `twistInNeighbor` of either grid. The code does not look
at the intersection. -/
def twistInSelf : Int := 0

/-- misc/twistutility.hh:17-20, 29-32, see `twistInSelf`. -/
def twistInNeighbor : Int := 0

/-! ## Specification -/

/-- What a twist means (dune-fem, ALUGrid; not part of the repository): corner `k` of the intersection is corner `applyTwist t k` of the facet. A
non-negative twist rotates the corners, a negative twist reverses the orientation. -/
def applyTwist {n : Nat} [NeZero n] (t : Int) (k : Fin n) : Fin n :=
  Fin.ofNat n ((if t < 0 then 2 * (n : Int) + 1 - k.val + t else k.val + t) % n).toNat

/-- `t` is the twist of an intersection with corners `q` in the facet with number `f` of an element with corners `c`: corner `k` of the intersection is the
corner of the element that the reference element has as corner `applyTwist t k` of facet `f`. -/
def IsTwist {n : Nat} [NeZero n] {V : Type*} (t : Int) (q : Fin n → V) (c : Fin (n + 1) → V) (f : Nat) : Prop :=
  ∃ h : f < n + 1, ∀ k, q k = c (refFacet ⟨f, h⟩ (applyTwist t k))

/-- On a segment the twist 1 swaps the corners; on a triangle the twists 1 and 2 rotate them and -1, -2, -3 are the odd permutations. -/
example : (List.finRange 2).map (applyTwist 1) = [1, 0] ∧ (List.finRange 3).map (applyTwist 1) = [1, 2, 0] ∧
    (List.finRange 3).map (applyTwist 2) = [2, 0, 1] ∧ (List.finRange 3).map (applyTwist (-1)) = [0, 2, 1] ∧
    (List.finRange 3).map (applyTwist (-2)) = [2, 1, 0] ∧ (List.finRange 3).map (applyTwist (-3)) = [1, 0, 2] := by decide

/-! ## Proofs -/

theorem applyTwist_zero {n : Nat} [NeZero n] (k : Fin n) : applyTwist 0 k = k := by
  unfold applyTwist
  have : ((k.val : Int) + 0) % n = k.val := by rw [add_zero]; exact Int.emod_eq_of_lt (by omega) (by exact_mod_cast k.isLt)
  rw [if_neg (by decide), this]
  simp

theorem isTwist_facet {d : ℕ} [NeZero d] (hd : d = 2 ∨ d = 3) {V : Type*} (e : Cell d) (he : WellFormed e) (pt : Fin (d + 1) → V) (s : Fin (d + 1))
    {q : Fin d → V} (hq : ∀ k, facetCorner e pt s k = some (q k)) : IsTwist 0 q (elementCorner e pt) (cgalFacetToDuneFacet d e.c s) := by
  obtain ⟨ids, h, rfl⟩ := he.cases
  have hf : cgalFacetToDuneFacet d (computeCGALIndices ids) s < d + 1 := by rw [dune_eq hd]; exact Fin.is_lt _
  refine ⟨hf, fun k => ?_⟩
  have := hq k
  rw [facetCorner, facetVertexSlot, dif_pos hf, Option.map_some, Option.some_inj] at this
  rw [applyTwist_zero, ← this]
  rfl

/-- **C186** (mesh) An intersection (facet `s` of the inside element `e`, facet `s'` of the outside element `e'`) has corners, and the twists returned
by the twist utility are its twists in the inside and in the outside element, in 2D and 3D. `pos` gives the position of each vertex. -/
theorem C186_mesh {d : ℕ} [NeZero d] (hd : d = 2 ∨ d = 3) {V : Type} (e e' : Cell d) (he : WellFormed e) (he' : WellFormed e') (pos : ℕ → V)
    (s s' : Fin (d + 1)) (hs : facetVertices e.ids s = facetVertices e'.ids s') :
    ∃ q : Fin d → V, (∀ k, facetCorner e (pos ∘ e.ids) s k = some (q k)) ∧
      IsTwist twistInSelf q (elementCorner e (pos ∘ e.ids)) (cgalFacetToDuneFacet d e.c s) ∧
      IsTwist twistInNeighbor q (elementCorner e' (pos ∘ e'.ids)) (cgalFacetToDuneFacet d e'.c s') := by
  have key := C09_facet_corners_agree hd e e' he he' pos s s' hs
  refine ⟨fun k => (facetCorner e (pos ∘ e.ids) s k).get (key k).2, fun k => by simp, isTwist_facet hd e he _ s fun k => by simp,
    isTwist_facet hd e' he' _ s' fun k => ?_⟩
  exact (key k).1.symm.trans (by simp)

theorem isTwist1 {V : Type*} (pt : Nat → V) {e : List Nat} (le : e.length = 2) {i : Nat} (hi : i < 2) :
    ∃ c q, elementCorners 1 pt e = some c ∧ cornersOf 1 pt (facetSpec 2 e i) = some q ∧ IsTwist 0 q c i := by
  have hs : (sortIds e).length = 2 := by rw [(sortIds_perm e).length_eq, le]
  unfold elementCorners facetSpec
  generalize sortIds e = s at hs ⊢
  match s, hs with
  | [a, b], _ =>
    have hi : i = 0 ∨ i = 1 := by omega
    rcases hi with rfl | rfl <;> refine ⟨_, _, rfl, rfl, by omega, fun k => ?_⟩ <;> fin_cases k <;> rfl

theorem isTwist2 {V : Type*} (pt : Nat → V) {e : List Nat} (le : e.length = 3) {i : Nat} (hi : i < 3) :
    ∃ c q, elementCorners 2 pt e = some c ∧ cornersOf 2 pt (facetSpec 3 e i) = some q ∧ IsTwist 0 q c i := by
  have hs : (sortIds e).length = 3 := by rw [(sortIds_perm e).length_eq, le]
  unfold elementCorners facetSpec
  generalize sortIds e = s at hs ⊢
  match s, hs with
  | [a, b, c], _ =>
    have hi : i = 0 ∨ i = 1 ∨ i = 2 := by omega
    rcases hi with rfl | rfl | rfl <;> refine ⟨_, _, rfl, rfl, by omega, fun k => ?_⟩ <;> fin_cases k <;> rfl

theorem isTwist {V : Type*} {m : Nat} [NeZero m] (hm : m = 1 ∨ m = 2) (pt : Nat → V) {e : List Nat} (le : e.length = m + 1) {i : Nat}
    (hi : i < m + 1) :
    ∃ c q, elementCorners m pt e = some c ∧ cornersOf m pt (facetSpec (m + 1) e i) = some q ∧ IsTwist 0 q c i := by
  rcases hm with rfl | rfl
  · exact isTwist1 pt le hi
  · exact isTwist2 pt le hi

/-- **C186** (interface) The twists returned by the twist utility of the interface grid are the twists of every visited intersection in its inside and,
unless it is on the boundary, in its outside element; `m` is the dimension of the interface. -/
theorem C186_interface {V : Type*} [AddCommGroup V] {m : Nat} [NeZero m] (hm : m = 1 ∨ m = 2) (pt : Nat → V) {els : List (List Nat)} (hE : Elements (m + 1) els)
    {s : State} (hs : update (m + 1) els = some s) (order : List (Nat × Nat) → List (Nat × Nat)) (ho : ∀ l, (order l).Perm l)
    (incident : Nat → List (List Nat)) (hinc : ∀ f ∈ els, ∀ v ∈ f, ∃ f' ∈ incident v, f'.Perm f) {e : List Nat} (he : e ∈ els) :
    ∃ l, Intersections (m + 1) s order incident (fun _ => false) e l ∧ ∀ p ∈ l, ∃ c q, elementCorners m pt e = some c ∧
      intersectionCorners m pt e p.1 = some q ∧ IsTwist twistInSelf q c p.1 ∧
      (¬ onBoundary (m + 1) s e p.1 → ∃ o j c', outside (m + 1) s order incident e p.1 p.2 = some o ∧ indexInOutside m e p.1 o = some j ∧
        elementCorners m pt o = some c' ∧ IsTwist twistInNeighbor q c' j) := by
  have hd : m + 1 = 2 ∨ m + 1 = 3 := by omega
  obtain ⟨l, hl, -, hlt, -, h2, h3⟩ := C21_neighbours hd hE hs order ho incident hinc (fun _ => false) he rfl
  refine ⟨l, hl, fun p hp => ?_⟩
  have hp2 := hlt p hp
  obtain ⟨c, q, hc, hq, hx⟩ := isTwist hm pt (hE.length e he) hp2
  refine ⟨c, q, hc, ?_, hx, fun hb => ?_⟩
  · rw [intersectionCorners_eq hm pt (hE.nodup e he) (hE.length e he) hp2, hq]
  · have hn : ∃ f, Neighbour (m + 1) els e p.1 f := by
      by_contra hno
      exact hb (h3 p.1 hp2 hno).1
    obtain ⟨o, f, hout, hf, hof⟩ := (h2 p hp hn).2
    have hon : o.Nodup := hof.nodup_iff.2 (hE.nodup f hf.1)
    have hol : o.length = m + 1 := hof.length_eq.trans (hE.length f hf.1)
    obtain ⟨j, hj, hij, hfac⟩ := indexInOutside_spec hm (hE.nodup e he) hon (hE.length e he) hol hp2 (fun v hv => hof.mem_iff.2 (hf.2.2 hv))
    obtain ⟨c', q', hc', hq', hx'⟩ := isTwist hm pt hol hj
    rw [hfac, hq] at hq'
    cases hq'
    exact ⟨o, j, c', hout, hij, hc', hx'⟩

/-- **C186** No other twist would do: if the corners of the element are different points, every twist of the intersection leaves the order of its corners. -/
theorem C186_only {n : Nat} [NeZero n] {V : Type*} {q : Fin n → V} {c : Fin (n + 1) → V} (hc : Function.Injective c) {f : Nat}
    (h0 : IsTwist twistInSelf q c f) {t : Int} (h : IsTwist t q c f) (k : Fin n) : applyTwist t k = k := by
  obtain ⟨hf, h0⟩ := h0
  obtain ⟨_, h⟩ := h
  have := (h0 k).symm.trans (h k)
  rw [twistInSelf, applyTwist_zero] at this
  exact (Fin.succAbove_right_injective (hc this)).symm

/-! The edge with the vertices 4 and 9 of two triangles has the twist 0 in both, and not the twist 1 (which swaps the corners). -/

example : ∃ q : Fin 2 → ℕ, (∀ k, facetCorner exTri (id ∘ exTri.ids) 2 k = some (q k)) ∧
    IsTwist 0 q (elementCorner exTri (id ∘ exTri.ids)) (cgalFacetToDuneFacet 2 exTri.c 2) ∧
    ¬ IsTwist 1 q (elementCorner exTri (id ∘ exTri.ids)) (cgalFacetToDuneFacet 2 exTri.c 2) ∧
    IsTwist 0 q (elementCorner exTri' (id ∘ exTri'.ids)) (cgalFacetToDuneFacet 2 exTri'.c 2) := by
  have hs : facetVertices exTri.ids 2 = facetVertices exTri'.ids 2 := by
    ext x; simp only [facetVertices, Set.mem_ofPred_eq, Fin.exists_fin_succ, exTri, exTri']
    simp; tauto
  obtain ⟨q, hq, h, h'⟩ := C186_mesh (Or.inl rfl) exTri exTri' exTri_wf exTri'_wf id 2 2 hs
  refine ⟨q, hq, h, fun h1 => ?_, h'⟩
  have hc : Function.Injective (elementCorner exTri (id ∘ exTri.ids)) := by
    obtain ⟨ids, hinj, hex⟩ := exTri_wf.cases
    rw [hex]
    exact hinj.comp (computeCGALIndices ids).injective
  exact absurd (C186_only hc h h1 0) (by decide)

example : Elements 2 exStar ∧ (update 2 exStar).isSome = true := ⟨exStar_elements, by decide⟩

end Verif.InterfaceGeo
