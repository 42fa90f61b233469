import Verif.Factory.SegProps
import Verif.Factory.Props

/-!
# C16: the facets used for the separation are the facets on the boundary of the domain
-/

namespace Verif.Segments

open Verif RefElem Factory

variable {d : Nat}

/-- explicitgridfactory.hh:458-467, 513-525: the sorted ids of the facets in `neighborMap` when `createInfiniteCells`
is called; `order` is the order of iteration. The ids are collected in the order of the vertices of the new infinite
element. -/
def boundaryKeys (S : Scheme d) (E : List (Fin (d + 1) → Nat)) (order : List (Finset Nat × Slot d)) : List Key :=
  order.filterMap fun e => E[e.2.1]?.map fun v => sortIds (List.ofFn (S.inf v e.2.2))

theorem ofFn_toFinset {n : Nat} (f : Fin n → Nat) : (List.ofFn f).toFinset = Finset.univ.image f := by
  ext x; simp [List.mem_ofFn]

theorem card_facetOf {v : Fin (d + 1) → Nat} (hv : Function.Injective v) (i : Fin (d + 1)) : (facetOf v i).card = d := by
  unfold facetOf
  rw [Finset.card_image_of_injective _ hv]
  simp

theorem inf_nodup {S : Scheme d} (hS : S.Valid) {v : Fin (d + 1) → Nat} (hv : Function.Injective v) (i : Fin (d + 1)) :
    (List.ofFn (S.inf v i)).Nodup := by
  have h1 : (List.ofFn (S.inf v i)).toFinset.card = (List.ofFn (S.inf v i)).length := by
    rw [ofFn_toFinset, hS.infImage, card_facetOf hv, List.length_ofFn]
  exact Multiset.coe_nodup.1 (Multiset.toFinset_card_eq_card_iff_nodup.1 h1)

theorem onBoundary_iff {S : Scheme d} (hS : S.Valid) {E : List (Fin (d + 1) → Nat)} (hE : Mesh E)
    (order : List (Finset Nat × Slot d)) (ho : order.Perm (createElements S E).st.fmap) (vs : List Nat) :
    OnBoundary (boundaryKeys S E order) vs ↔ vs.Nodup ∧ mult E vs.toFinset = 1 := by
  obtain ⟨h1, h2, h3⟩ := hE.parts
  unfold OnBoundary boundaryKeys
  rw [List.mem_filterMap, ← isBoundary_iff]
  constructor
  · rintro ⟨⟨k, s⟩, he, hk⟩
    obtain ⟨v, hv, hkf, hu⟩ := (mem_fmap hS h1 h2 k s).1 (ho.mem_iff.1 he)
    simp only [hv, Option.map_some, Option.some.injEq] at hk
    have hp := (sort_eq_iff _ _).1 hk
    have hset : vs.toFinset = k := by
      rw [← List.toFinset_eq_of_perm _ _ hp, ofFn_toFinset, hS.infImage, hkf]
    refine ⟨hp.nodup_iff.1 (inf_nodup hS (h1.get hv) _), s.1, ?_, ?_⟩
    · rw [hset]; exact ⟨v, s.2, hv, hkf.symm⟩
    · intro h' hh'; rw [hset] at hh'; exact hu h' hh'
  · rintro ⟨hnd, h, ⟨v, i, hv, hf⟩, hu⟩
    refine ⟨(vs.toFinset, (h, i)), ho.mem_iff.2 ((mem_fmap hS h1 h2 _ _).2 ⟨v, hv, hf.symm, hu⟩), ?_⟩
    simp only [hv, Option.map_some, Option.some.injEq]
    rw [sort_eq_iff]
    refine List.perm_of_nodup_nodup_toFinset_eq (inf_nodup hS (h1.get hv) _) hnd ?_
    rw [ofFn_toFinset, hS.infImage, hf]

/-- **C16** 2D, the whole of `createGrid`: elements `L` inserted (created in the order `E` with oriented vertices),
segments inserted by the calls `h`. A facet inserted both as interface and as boundary segment becomes a boundary
segment if exactly one element has it as facet and an interface segment otherwise. -/
theorem C16_domain_2d {K : Type*} [Field K] [LinearOrder K] [IsStrictOrderedRing K] (x y : Nat → K)
    (L E : List (Fin 3 → Nat)) (hL : Mesh L) (hE : E.Perm (L.map (orient2 x y)))
    (order : List (Finset Nat × Slot 2)) (ho : order.Perm (createElements scheme2 E).st.fmap)
    (h : List Call) (s : State) (hs : run {} h = some s) (vs : List Nat) (hnd : vs.Nodup)
    (hi : CalledInterface h vs) (hb : CalledBoundary h vs) :
    (IsBoundarySegment (createGrid s (boundaryKeys scheme2 E order)) vs ↔ mult E vs.toFinset = 1) ∧
    (IsInterfaceSegment (createGrid s (boundaryKeys scheme2 E order)) vs ↔ mult E vs.toFinset ≠ 1) := by
  have hM := hL.of_perm hE (orient2_perm x y)
  have := (C16_separated h s hs (boundaryKeys scheme2 E order) vs).2 hi hb
  rw [onBoundary_iff scheme2_valid hM order ho] at this
  simpa [hnd] using this

/-- **C16** 3D. -/
theorem C16_domain_3d (L E : List (Fin 4 → Nat)) (hL : Mesh L) (hE : E.Perm (L.map orient3))
    (order : List (Finset Nat × Slot 3)) (ho : order.Perm (createElements scheme3 E).st.fmap)
    (h : List Call) (s : State) (hs : run {} h = some s) (vs : List Nat) (hnd : vs.Nodup)
    (hi : CalledInterface h vs) (hb : CalledBoundary h vs) :
    (IsBoundarySegment (createGrid s (boundaryKeys scheme3 E order)) vs ↔ mult E vs.toFinset = 1) ∧
    (IsInterfaceSegment (createGrid s (boundaryKeys scheme3 E order)) vs ↔ mult E vs.toFinset ≠ 1) := by
  have hM := hL.of_perm hE (fun v => ⟨1, rfl⟩)
  have := (C16_separated h s hs (boundaryKeys scheme3 E order) vs).2 hi hb
  rw [onBoundary_iff scheme3_valid hM order ho] at this
  simpa [hnd] using this

/-- Non-vacuity: in the mesh `exMesh` of two triangles, facet (1 2) is shared and facet (0 1) is on the boundary;
there is a valid iteration order. -/
example : mult exMesh {1, 2} = 2 ∧ mult exMesh {0, 1} = 1 ∧
    (createElements scheme2 exMesh).st.fmap.Perm (createElements scheme2 exMesh).st.fmap := by
  refine ⟨by decide, by decide, List.Perm.refl _⟩

end Verif.Segments
