import Verif.Factory.Conn
import Mathlib.Tactic.Linarith
import Mathlib.Tactic.Ring
import Mathlib.Tactic.FinCases
import Mathlib.Tactic.NormNum
import Mathlib.Data.Rat.Defs
import Mathlib.Algebra.Order.Ring.Rat

/-!
# Connectivity built by the explicit factory: main lemma

The specification is in `Verif.Factory.Conn`: `facetOf`, `HasFacet`, `Conforming`, `IsBoundary`,
`BoundaryManifold`. The infinite vertex is `none`; an element is infinite if it has that vertex.
-/

namespace Verif.Factory

variable {d : Nat}

theorem scheme2_valid : scheme2.Valid where
  facets := by
    intro v k i
    have e0 : (Finset.univ : Finset (Fin 3)).erase 0 = {1, 2} := by decide
    have e1 : (Finset.univ : Finset (Fin 3)).erase 1 = {0, 2} := by decide
    have e2 : (Finset.univ : Finset (Fin 3)).erase 2 = {0, 1} := by decide
    have h : ∀ j : Fin 3, j = 0 ∨ j = 1 ∨ j = 2 := by decide
    rcases h i with rfl | rfl | rfl <;>
      simp [scheme2, facetOf, e0, e1, e2, Finset.image_insert, Finset.image_singleton]
  facetsNodup := by intro v; simp [scheme2]
  infImage := by
    intro v fi
    have e : (Finset.univ : Finset (Fin 2)) = {0, 1} := by decide
    have h : ∀ j : Fin 3, (Finset.univ : Finset (Fin 3)).erase j = {j + 2, j + 1} := by decide
    simp only [scheme2, facetOf, e, h, Finset.image_insert, Finset.image_singleton]
    rfl
  infInj := by
    intro v fi hv i j hij
    have h : ∀ j : Fin 3, j + 2 ≠ j + 1 := by decide
    have hi : ∀ j : Fin 2, j = 0 ∨ j = 1 := by decide
    rcases hi i with rfl | rfl <;> rcases hi j with rfl | rfl
    · rfl
    · exact absurd (hv hij) (h fi)
    · exact absurd (hv hij).symm (h fi)
    · rfl
  ifacets := by
    intro w k j
    have e0 : (Finset.univ : Finset (Fin 2)).erase 0 = {1} := by decide
    have e1 : (Finset.univ : Finset (Fin 2)).erase 1 = {0} := by decide
    have hi : ∀ j : Fin 2, j = 0 ∨ j = 1 := by decide
    rcases hi j with rfl | rfl <;> simp [scheme2, e0, e1, Finset.image_singleton]
  ifacetsNodup := by intro w; simp [scheme2]

theorem scheme3_valid : scheme3.Valid where
  facets := by
    intro v k i
    have e0 : (Finset.univ : Finset (Fin 4)).erase 0 = {1, 2, 3} := by decide
    have e1 : (Finset.univ : Finset (Fin 4)).erase 1 = {0, 2, 3} := by decide
    have e2 : (Finset.univ : Finset (Fin 4)).erase 2 = {0, 1, 3} := by decide
    have e3 : (Finset.univ : Finset (Fin 4)).erase 3 = {0, 1, 2} := by decide
    have h : ∀ j : Fin 4, j = 0 ∨ j = 1 ∨ j = 2 ∨ j = 3 := by decide
    rcases h i with rfl | rfl | rfl | rfl <;>
      simp [scheme3, facetOf, e0, e1, e2, e3, Finset.image_insert, Finset.image_singleton]
  facetsNodup := by intro v; simp [scheme3]
  infImage := by
    intro v fi
    have e : (Finset.univ : Finset (Fin 3)) = {0, 1, 2} := by decide
    have h : ∀ j : Fin 4, (Finset.univ : Finset (Fin 4)).erase j = {j + 2, j + 1, j + 3} ∧
      (Finset.univ : Finset (Fin 4)).erase j = {j + 1, j + 2, j + 3} := by decide
    unfold facetOf
    by_cases hodd : fi.val % 2 = 1
    · simp only [scheme3, e, (h fi).1, Finset.image_insert, Finset.image_singleton, if_pos hodd]
      rfl
    · simp only [scheme3, e, (h fi).2, Finset.image_insert, Finset.image_singleton, if_neg hodd]
      rfl
  infInj := by
    intro v fi hv
    have h : ∀ j : Fin 4, j + 2 ≠ j + 1 ∧ j + 2 ≠ j + 3 ∧ j + 1 ≠ j + 3 := by decide
    have key : ∀ a b c : Nat, a ≠ b → a ≠ c → b ≠ c → Function.Injective (![a, b, c] : Fin 3 → Nat) := by
      intro a b c hab hac hbc i j hij
      have hi : ∀ j : Fin 3, j = 0 ∨ j = 1 ∨ j = 2 := by decide
      rcases hi i with rfl | rfl | rfl <;> rcases hi j with rfl | rfl | rfl
      · rfl
      · exact absurd hij hab
      · exact absurd hij hac
      · exact absurd hij.symm hab
      · rfl
      · exact absurd hij hbc
      · exact absurd hij.symm hac
      · exact absurd hij.symm hbc
      · rfl
    obtain ⟨h1, h2, h3⟩ := h fi
    simp only [scheme3]
    split
    · exact key _ _ _ (fun e => h1 (hv e)) (fun e => h2 (hv e)) (fun e => h3 (hv e))
    · exact key _ _ _ (fun e => h1 (hv e).symm) (fun e => h3 (hv e)) (fun e => h2 (hv e))
  ifacets := by
    intro w k j
    have e0 : (Finset.univ : Finset (Fin 3)).erase 0 = {1, 2} := by decide
    have e1 : (Finset.univ : Finset (Fin 3)).erase 1 = {2, 0} := by decide
    have e2 : (Finset.univ : Finset (Fin 3)).erase 2 = {0, 1} := by decide
    have hi : ∀ j : Fin 3, j = 0 ∨ j = 1 ∨ j = 2 := by decide
    rcases hi j with rfl | rfl | rfl <;>
      simp [scheme3, e0, e1, e2, Finset.image_insert, Finset.image_singleton]
  ifacetsNodup := by intro w; simp [scheme3]

/-! ### facets of finite and infinite elements -/

theorem facetOf_some (v : Fin (d + 1) → Nat) (i : Fin (d + 1)) :
    facetOf (fun i => some (v i)) i = (facetOf v i).image some := by
  unfold facetOf; rw [Finset.image_image]; rfl

theorem image_some_inj {s t : Finset Nat} : s.image some = t.image some ↔ s = t :=
  (Finset.image_injective (Option.some_injective Nat)).eq_iff

theorem facetOf_snoc_last (w : Fin d → Nat) :
    facetOf (Fin.snoc (α := fun _ => Option Nat) (fun i => some (w i)) none) (Fin.last d)
      = (Finset.univ.image w).image some := by
  ext x
  unfold facetOf
  simp only [Finset.mem_image, Finset.mem_erase, Finset.mem_univ, and_true, true_and]
  constructor
  · rintro ⟨i, hi, rfl⟩
    induction i using Fin.lastCases with
    | last => exact absurd rfl hi
    | cast j => rw [Fin.snoc_castSucc]; exact ⟨w j, ⟨j, rfl⟩, rfl⟩
  · rintro ⟨_, ⟨j, rfl⟩, rfl⟩
    exact ⟨j.castSucc, Fin.castSucc_ne_last _, by rw [Fin.snoc_castSucc]⟩

theorem facetOf_snoc_cast (w : Fin d → Nat) (j : Fin d) :
    facetOf (Fin.snoc (α := fun _ => Option Nat) (fun i => some (w i)) none) j.castSucc
      = insert none (((Finset.univ.erase j).image w).image some) := by
  ext x
  unfold facetOf
  simp only [Finset.mem_image, Finset.mem_erase, Finset.mem_univ, and_true, Finset.mem_insert]
  constructor
  · rintro ⟨i, hi, rfl⟩
    induction i using Fin.lastCases with
    | last => left; rw [Fin.snoc_last]
    | cast k =>
      right
      rw [Fin.snoc_castSucc]
      exact ⟨w k, ⟨k, fun e => hi (by rw [e]), rfl⟩, rfl⟩
  · rintro (rfl | ⟨_, ⟨k, hk, rfl⟩, rfl⟩)
    · exact ⟨Fin.last d, fun e => Fin.castSucc_ne_last _ e.symm, by rw [Fin.snoc_last]⟩
    · exact ⟨k.castSucc, fun e => hk (Fin.castSucc_injective d e), by rw [Fin.snoc_castSucc]⟩

theorem none_insert_inj {s t : Finset Nat} (h : insert none (s.image some) = insert none (t.image some)) : s = t := by
  ext x
  have := Finset.ext_iff.1 h (some x)
  simpa using this

theorem none_insert_ne {s t : Finset Nat} : insert none (s.image some) ≠ t.image some := by
  intro h
  have := Finset.ext_iff.1 h none
  simp at this

theorem boundary_unique {S : Scheme d} (hS : S.Valid) {E : List (Fin (d + 1) → Nat)} (hE : Simplices E)
    (hc : Conforming E) {k : Finset Nat} {s s' : Slot d} (h : (k, s) ∈ (createElements S E).st.fmap)
    (h' : (k, s') ∈ (createElements S E).st.fmap) : s = s' := by
  rw [(createElements_good hS hE hc).2.fmap] at h h'
  exact (h.2 s' h'.1).symm

/-- The main statement, for both dimensions. -/
theorem connectivity {S : Scheme d} (hS : S.Valid) {E : List (Fin (d + 1) → Nat)} (hE : Simplices E)
    (hc : Conforming E) (hm : BoundaryManifold E) (order : List (Finset Nat × Slot d))
    (ho : order.Perm (createElements S E).st.fmap) (c : Nat) (i : Fin (d + 1)) (cell)
    (hcell : (buildTds S E order).cells[c]? = some cell) (c' : Nat) :
    (buildTds S E order).st.nbr (c, i) = some c' ↔
      c' ≠ c ∧ ∃ cell' i', (buildTds S E order).cells[c']? = some cell' ∧ facetOf cell' i' = facetOf cell i := by
  obtain ⟨hcells1, G1⟩ := createElements_good hS hE hc
  have hmem : ∀ k s, (k, s) ∈ order ↔ ∃ v, E[s.1]? = some v ∧ k = facetOf v s.2 ∧ ∀ h', HasFacet E h' k → h' = s.1 := by
    intro k s; rw [ho.mem_iff, mem_fmap hS hE hc]
  have hordnd : order.Nodup := ho.nodup_iff.2 G1.nodup
  have hv : ∀ e ∈ order, e.2.1 < E.length := by
    rintro ⟨k, s⟩ he
    obtain ⟨v, hv, -⟩ := (hmem k s).1 he
    exact (List.getElem?_eq_some_iff.1 hv).1
  -- slots in `order` are distinct
  have hslots : (order.map Prod.snd).Nodup := by
    refine List.Nodup.map_on ?_ hordnd
    rintro ⟨k, s⟩ h1 ⟨k', s'⟩ h2 hs
    simp only at hs
    subst hs
    obtain ⟨v, hv1, hk1, -⟩ := (hmem k s).1 h1
    obtain ⟨v', hv2, hk2, -⟩ := (hmem k' s).1 h2
    rw [hv1] at hv2
    cases hv2
    rw [hk1, hk2]
  set t1 := createElements S E with ht1
  have hlen1 : t1.cells.length = E.length := by rw [hcells1, List.length_map]
  obtain ⟨hcells2, hst2⟩ := createInfinite_aux S E order hv { t1 with st := { t1.st with fmap := [] } }
  have hT : buildTds S E order
      = order.foldl (fun t e => createInfinite S E t e.2) { t1 with st := { t1.st with fmap := [] } } := rfl
  rw [← hT] at hcells2 hst2
  simp only at hcells2 hst2
  rw [hlen1] at hst2
  -- values of the infinite elements
  have hinf : ∀ k s, (k, s) ∈ order → ∃ v, E[s.1]? = some v ∧ Function.Injective v ∧ k = facetOf v s.2 ∧
      infCell S E (k, s) = Fin.snoc (α := fun _ => Option Nat) (fun i => some (S.inf v s.2 i)) none ∧
      (∀ c, infOps1 S E c s = Op.link s (c, Fin.last d) ::
        ((S.ifacets (S.inf v s.2)).map fun f => (f.1, f.2.castSucc)).map (fun f => Op.facet f.1 (c, f.2))) ∧
      Finset.univ.image (S.inf v s.2) = k ∧ (∀ h', HasFacet E h' k → h' = s.1) := by
    intro k s he
    obtain ⟨v, hv, hk, hu⟩ := (hmem k s).1 he
    refine ⟨v, hv, hE.get hv, hk, ?_, ?_, ?_, hu⟩
    · simp only [infCell, hv]
    · intro c; simp only [infOps1, hv]
    · rw [hk, hS.infImage]
  -- the facet operations of the second stage
  have hfac : ∀ k' s', Op.facet k' s' ∈ infOps S E E.length order ↔
      ∃ q k s v j, order[q]? = some (k, s) ∧ E[s.1]? = some v ∧ s' = (E.length + q, Fin.castSucc j) ∧
        k' = (Finset.univ.erase j).image (S.inf v s.2) := by
    intro k' s'
    rw [mem_infOps]
    constructor
    · rintro ⟨q, ⟨k, s⟩, hq, hm'⟩
      obtain ⟨v, hv, -, -, -, hops, -, -⟩ := hinf k s (List.mem_of_getElem? hq)
      rw [hops] at hm'
      simp only [List.mem_cons, reduceCtorEq, false_or, List.mem_map, Op.facet.injEq] at hm'
      obtain ⟨f, ⟨⟨gk, gj⟩, hg, rfl⟩, rfl, rfl⟩ := hm'
      exact ⟨q, k, s, v, gj, hq, hv, rfl, (hS.ifacets _ _ _).1 hg⟩
    · rintro ⟨q, k, s, v, j, hq, hv, rfl, rfl⟩
      obtain ⟨v', hv', -, -, -, hops, -, -⟩ := hinf k s (List.mem_of_getElem? hq)
      rw [hv] at hv'
      cases hv'
      refine ⟨q, (k, s), hq, ?_⟩
      rw [hops]
      refine List.mem_cons_of_mem _ (List.mem_map.2 ⟨(_, j.castSucc), List.mem_map.2 ⟨(_, j), ?_, rfl⟩, rfl⟩)
      exact (hS.ifacets _ _ _).2 rfl
  have hlinkm : ∀ q k s, order[q]? = some (k, s) → Op.link s (E.length + q, Fin.last d) ∈ infOps S E E.length order := by
    intro q k s hq
    obtain ⟨v, hv, -, -, -, hops, -, -⟩ := hinf k s (List.mem_of_getElem? hq)
    exact (mem_infOps S E order E.length _).2 ⟨q, (k, s), hq, by rw [hops]; exact List.mem_cons_self ..⟩
  -- slots touched in the second stage were free before
  have hslot2 : ∀ s ∈ (infOps S E E.length order).flatMap Op.slots, (∃ k, (k, s) ∈ order) ∨ E.length ≤ s.1 := by
    intro s hs
    obtain ⟨o, ho', hso⟩ := List.mem_flatMap.1 hs
    obtain ⟨q, ⟨k, s0⟩, hq, hm'⟩ := (mem_infOps S E order E.length o).1 ho'
    rcases infOps1_slots E (E.length + q) s0 s (mem_slots hm' hso) with rfl | h
    · exact Or.inl ⟨k, List.mem_of_getElem? hq⟩
    · exact Or.inr (by omega)
  have hfree1 : ∀ k s, (k, s) ∈ order → t1.st.nbr s = none := by
    intro k s he
    obtain ⟨v, hv, -, hk, -, -, -, hu⟩ := hinf k s he
    have hop : Op.facet k s ∈ elemOps S 0 E := (mem_elemOps0 hS E k s).2 ⟨v, hv, hk⟩
    cases hn : t1.st.nbr s with
    | none => rfl
    | some h' =>
      exfalso
      obtain ⟨s', hne, hm', -⟩ := (G1.facet k s hop h').1 hn
      have := ((G1.fmap k s).1 (ho.mem_iff.1 he)).2 s' hm'
      exact hne this
  have hfree2 : ∀ s : Slot d, E.length ≤ s.1 → t1.st.nbr s = none := by
    intro s hs
    refine G1.other s fun hmem' => ?_
    obtain ⟨o, ho', hso⟩ := List.mem_flatMap.1 hmem'
    cases o with
    | link a b => exact no_link_elemOps S E 0 a b ho'
    | facet k a =>
      simp only [Op.slots, List.mem_cons, List.not_mem_nil, or_false] at hso
      subst hso
      obtain ⟨v, hv', -⟩ := (mem_elemOps0 hS E k s).1 ho'
      have := (List.getElem?_eq_some_iff.1 hv').1
      omega
  -- ridges
  have hridge : ∀ k s v j, (k, s) ∈ order → E[s.1]? = some v →
      IsBoundary E k ∧ IsRidge ((Finset.univ.erase j).image (S.inf v s.2)) k ∧
      (Finset.univ.erase j).image (S.inf v s.2) = k.erase (S.inf v s.2 j) := by
    intro k s v j he hv
    obtain ⟨v', hv', hinj, hk, -, -, him, hu⟩ := hinf k s he
    rw [hv] at hv'
    cases hv'
    have e : (Finset.univ.erase j).image (S.inf v s.2) = k.erase (S.inf v s.2 j) := by
      rw [Finset.image_erase (hS.infInj v s.2 hinj), him]
    refine ⟨⟨s.1, ⟨v, s.2, hv, hk.symm⟩, hu⟩, ⟨S.inf v s.2 j, ?_, e⟩, e⟩
    rw [← him]; exact Finset.mem_image_of_mem _ (Finset.mem_univ _)
  have hqinj : ∀ (q q' : Nat) (k : Finset Nat) (s s' : Slot d), order[q]? = some (k, s) → order[q']? = some (k, s') → q = q' := by
    intro q q' k s s' h1 h2
    have hs : s = s' :=
      boundary_unique hS hE hc (ho.mem_iff.1 (List.mem_of_getElem? h1)) (ho.mem_iff.1 (List.mem_of_getElem? h2))
    subst hs
    obtain ⟨l1, e1⟩ := List.getElem?_eq_some_iff.1 h1
    obtain ⟨l2, e2⟩ := List.getElem?_eq_some_iff.1 h2
    exact (List.Nodup.getElem_inj_iff hordnd).1 (e1.trans e2.symm)
  have htwo : AtMostTwo (infOps S E E.length order) := by
    intro R s1 s2 s3 m1 m2 m3
    obtain ⟨q1, k1, t1', v1, j1, hq1, hv1, rfl, r1⟩ := (hfac R s1).1 m1
    obtain ⟨q2, k2, t2', v2, j2, hq2, hv2, rfl, r2⟩ := (hfac R s2).1 m2
    obtain ⟨q3, k3, t3', v3, j3, hq3, hv3, rfl, r3⟩ := (hfac R s3).1 m3
    have b1 := hridge k1 t1' v1 j1 (List.mem_of_getElem? hq1) hv1
    have b2 := hridge k2 t2' v2 j2 (List.mem_of_getElem? hq2) hv2
    have b3 := hridge k3 t3' v3 j3 (List.mem_of_getElem? hq3) hv3
    have same : ∀ (q q' : Nat) (k k' : Finset Nat) (t t' : Slot d) (v v' : Fin (d + 1) → Nat) (j j' : Fin d),
        order[q]? = some (k, t) → order[q']? = some (k', t') →
        E[t.1]? = some v → E[t'.1]? = some v' → R = (Finset.univ.erase j).image (S.inf v t.2) →
        R = (Finset.univ.erase j').image (S.inf v' t'.2) → k = k' →
        ((E.length + q, Fin.castSucc j) : Slot d) = (E.length + q', Fin.castSucc j') := by
      intro q q' k k' t t' v v' j j' h1 h2 h3 h4 h5 h6 h7
      subst h7
      have hq := hqinj q q' k t t' h1 h2
      subst hq
      rw [h1] at h2
      cases h2
      rw [h3] at h4
      cases h4
      have hj : j = j' := by
        obtain ⟨v', hv', hinj, -⟩ := hinf k t (List.mem_of_getElem? h1)
        rw [h3] at hv'
        cases hv'
        have e := h5.symm.trans h6
        by_contra hne
        have : S.inf v t.2 j' ∈ (Finset.univ.erase j).image (S.inf v t.2) :=
          Finset.mem_image_of_mem _ (Finset.mem_erase.2 ⟨fun e => hne e.symm, Finset.mem_univ _⟩)
        rw [e] at this
        obtain ⟨x, hx, hxe⟩ := Finset.mem_image.1 this
        exact (Finset.mem_erase.1 hx).1 (hS.infInj v t.2 hinj hxe)
      rw [hj]
    rcases hm R k1 k2 k3 b1.1 b2.1 b3.1 (r1 ▸ b1.2.1) (r2 ▸ b2.2.1) (r3 ▸ b3.2.1) with h | h | h
    · exact Or.inl (same _ _ _ _ _ _ _ _ _ _ hq1 hq2 hv1 hv2 r1 r2 h)
    · exact Or.inr (Or.inl (same _ _ _ _ _ _ _ _ _ _ hq1 hq3 hv1 hv3 r1 r3 h))
    · exact Or.inr (Or.inr (same _ _ _ _ _ _ _ _ _ _ hq2 hq3 hv2 hv3 r2 r3 h))
  have G2 : Good t1.st.nbr (infOps S E E.length order) (buildTds S E order).st := by
    rw [hst2]
    refine run_good _ _ (infOps_nodup hS E order E.length hv hslots) ?_ htwo
    intro s hs
    rcases hslot2 s hs with ⟨k, hk⟩ | h
    · exact hfree1 k s hk
    · exact hfree2 s h
  -- what the elements look like
  have hget : ∀ c cell, (buildTds S E order).cells[c]? = some cell ↔
      (∃ v, E[c]? = some v ∧ cell = fun i => some (v i)) ∨
      (∃ q k s v, c = E.length + q ∧ order[q]? = some (k, s) ∧ E[s.1]? = some v ∧
        cell = Fin.snoc (α := fun _ => Option Nat) (fun i => some (S.inf v s.2 i)) none) := by
    intro c cell
    rw [hcells2, hcells1]
    by_cases hlt : c < E.length
    · rw [List.getElem?_append_left (by simpa using hlt), List.getElem?_map, Option.map_eq_some_iff]
      constructor
      · rintro ⟨v, h1, rfl⟩; exact Or.inl ⟨v, h1, rfl⟩
      · rintro (⟨v, h1, rfl⟩ | ⟨q, k, s, v, rfl, -⟩)
        · exact ⟨v, h1, rfl⟩
        · omega
    · rw [List.getElem?_append_right (by simp; omega), List.getElem?_map, Option.map_eq_some_iff]
      simp only [List.length_map]
      constructor
      · rintro ⟨⟨k, s⟩, h1, rfl⟩
        obtain ⟨v, hv, -, -, hcell', -⟩ := hinf k s (List.mem_of_getElem? h1)
        exact Or.inr ⟨c - E.length, k, s, v, by omega, h1, hv, hcell'⟩
      · rintro (⟨v, h1, rfl⟩ | ⟨q, k, s, v, rfl, h1, hv, rfl⟩)
        · exact absurd (List.getElem?_eq_some_iff.1 h1).1 hlt
        · refine ⟨(k, s), by rw [Nat.add_sub_cancel_left]; exact h1, ?_⟩
          obtain ⟨v', hv', -, -, hcell', -⟩ := hinf k s (List.mem_of_getElem? h1)
          rw [hv] at hv'
          cases hv'
          exact hcell'
  rcases (hget c cell).1 hcell with ⟨v, hvc, rfl⟩ | ⟨q, k, s, v, rfl, hq, hvs, rfl⟩
  · -- a finite element
    have hlt : c < E.length := (List.getElem?_eq_some_iff.1 hvc).1
    have hop : Op.facet (facetOf v i) (c, i) ∈ elemOps S 0 E := (mem_elemOps0 hS E _ _).2 ⟨v, hvc, rfl⟩
    -- the elements that have the facet
    have hsame : ∀ c', (∃ cell' i', (buildTds S E order).cells[c']? = some cell' ∧
        facetOf cell' i' = facetOf (fun i => some (v i)) i) ↔ (HasFacet E c' (facetOf v i) ∨
          ∃ q s, c' = E.length + q ∧ order[q]? = some (facetOf v i, s)) := by
      intro c'
      constructor
      · rintro ⟨cell', i', hc', hf⟩
        rcases (hget c' cell').1 hc' with ⟨v', hv', rfl⟩ | ⟨q, k, s, v', rfl, hq, hvs, rfl⟩
        · left
          rw [facetOf_some, facetOf_some, image_some_inj] at hf
          exact ⟨v', i', hv', hf⟩
        · right
          rw [facetOf_some] at hf
          induction i' using Fin.lastCases with
          | last =>
            rw [facetOf_snoc_last, image_some_inj] at hf
            obtain ⟨v'', hv'', -, hk, -, -, him, -⟩ := hinf k s (List.mem_of_getElem? hq)
            rw [hvs] at hv''
            cases hv''
            rw [him] at hf
            exact ⟨q, s, rfl, by rw [hq, hf]⟩
          | cast j =>
            rw [facetOf_snoc_cast] at hf
            exact absurd hf none_insert_ne
      · rintro (⟨v', i', hv', hf⟩ | ⟨q, s, rfl, hq⟩)
        · exact ⟨_, i', (hget c' _).2 (Or.inl ⟨v', hv', rfl⟩), by rw [facetOf_some, facetOf_some, hf]⟩
        · obtain ⟨v', hv', -, hk, -, -, him, -⟩ := hinf _ s (List.mem_of_getElem? hq)
          refine ⟨_, Fin.last d, (hget _ _).2 (Or.inr ⟨q, _, s, v', rfl, hq, hv', rfl⟩), ?_⟩
          rw [facetOf_snoc_last, facetOf_some, him]
    rw [hsame]
    by_cases hb : ∀ h', HasFacet E h' (facetOf v i) → h' = c
    · -- boundary facet
      have hin : (facetOf v i, (c, i)) ∈ order := (hmem _ _).2 ⟨v, hvc, rfl, hb⟩
      obtain ⟨q, hq⟩ := List.mem_iff_getElem?.1 hin
      have hl := (G2.link _ _ (hlinkm q _ _ hq)).1
      rw [hl]
      constructor
      · intro h
        cases h
        exact ⟨by simp; omega, Or.inr ⟨q, (c, i), rfl, hq⟩⟩
      · rintro ⟨hne, h | ⟨q', s, rfl, hq'⟩⟩
        · exact absurd (hb _ h) hne
        · rw [hqinj q q' _ _ _ hq hq']
    · -- inner facet
      have hnot : (c, i) ∉ (infOps S E E.length order).flatMap Op.slots := by
        intro hs
        rcases hslot2 _ hs with ⟨k, hk⟩ | h
        · obtain ⟨v', hv', hk', hu⟩ := (hmem _ _).1 hk
          simp only at hv' hk' hu
          rw [hvc] at hv'
          cases hv'
          rw [hk'] at hu
          exact hb hu
        · simp only at h; omega
      rw [G2.other _ hnot, G1.facet _ _ hop]
      constructor
      · rintro ⟨s', hne, hm', rfl⟩
        obtain ⟨v', hv', hf⟩ := (mem_elemOps0 hS E _ s').1 hm'
        refine ⟨fun e => hne ?_, Or.inl ⟨v', s'.2, hv', hf.symm⟩⟩
        rw [e, hvc] at hv'
        cases hv'
        exact Prod.ext e (facetOf_inj (hE.get hvc) hf.symm)
      · rintro ⟨hne, ⟨v', i', hv', hf⟩ | ⟨q', s, rfl, hq'⟩⟩
        · exact ⟨(c', i'), fun e => hne (congrArg Prod.fst e), (mem_elemOps0 hS E _ _).2 ⟨v', hv', hf.symm⟩, rfl⟩
        · obtain ⟨-, -, -, -, -, -, -, hu⟩ := hinf _ s (List.mem_of_getElem? hq')
          exfalso
          apply hb
          intro h' hh'
          rw [hu h' hh', hu c ⟨v, i, hvc, rfl⟩]
  · -- an infinite element
    obtain ⟨v', hv', hinj, hk, -, -, him, hu⟩ := hinf k s (List.mem_of_getElem? hq)
    rw [hvs] at hv'
    cases hv'
    induction i using Fin.lastCases with
    | last =>
      have hl := (G2.link _ _ (hlinkm q _ _ hq)).2
      rw [hl, facetOf_snoc_last, him]
      have hslt := (List.getElem?_eq_some_iff.1 hvs).1
      constructor
      · intro h
        cases h
        refine ⟨by omega, _, s.2, (hget _ _).2 (Or.inl ⟨v, hvs, rfl⟩), ?_⟩
        rw [facetOf_some, hk]
      · rintro ⟨hne, cell', i', hc', hf⟩
        rcases (hget c' cell').1 hc' with ⟨w, hw, rfl⟩ | ⟨q', k', s', w, rfl, hq', hw, rfl⟩
        · rw [facetOf_some, image_some_inj] at hf
          rw [hu c' ⟨w, i', hw, hf⟩]
        · exfalso
          induction i' using Fin.lastCases with
          | last =>
            obtain ⟨w', hw', -, hk', -, -, him', -⟩ := hinf k' s' (List.mem_of_getElem? hq')
            rw [hw] at hw'
            cases hw'
            rw [facetOf_snoc_last, image_some_inj, him'] at hf
            subst hf
            exact hne (by rw [hqinj q q' _ _ _ hq hq'])
          | cast j => rw [facetOf_snoc_cast] at hf; exact none_insert_ne hf
    | cast j =>
      have hop := (hfac ((Finset.univ.erase j).image (S.inf v s.2)) (E.length + q, j.castSucc)).2
        ⟨q, k, s, v, j, hq, hvs, rfl, rfl⟩
      rw [G2.facet _ _ hop, facetOf_snoc_cast]
      constructor
      · rintro ⟨s', hne, hm', rfl⟩
        obtain ⟨q', k', t', w, j', hq', hw, rfl, hR⟩ := (hfac _ _).1 hm'
        refine ⟨?_, _, j'.castSucc, (hget _ _).2 (Or.inr ⟨q', k', t', w, rfl, hq', hw, rfl⟩), ?_⟩
        · intro e
          simp only at e
          have : q' = q := by omega
          subst this
          rw [hq] at hq'
          cases hq'
          rw [hvs] at hw
          cases hw
          apply hne
          have hj : j' = j := by
            by_contra hjne
            have : S.inf v s.2 j' ∈ (Finset.univ.erase j).image (S.inf v s.2) :=
              Finset.mem_image_of_mem _ (Finset.mem_erase.2 ⟨hjne, Finset.mem_univ _⟩)
            rw [hR] at this
            obtain ⟨x, hx, hxe⟩ := Finset.mem_image.1 this
            exact (Finset.mem_erase.1 hx).1 (hS.infInj v s.2 hinj hxe)
          rw [hj]
        · rw [facetOf_snoc_cast, hR]
      · rintro ⟨hne, cell', i', hc', hf⟩
        rcases (hget c' cell').1 hc' with ⟨w, hw, rfl⟩ | ⟨q', k', s', w, rfl, hq', hw, rfl⟩
        · rw [facetOf_some] at hf
          exact absurd hf.symm none_insert_ne
        · induction i' using Fin.lastCases with
          | last => rw [facetOf_snoc_last] at hf; exact absurd hf.symm none_insert_ne
          | cast j' =>
            rw [facetOf_snoc_cast] at hf
            have := none_insert_inj hf
            exact ⟨(E.length + q', j'.castSucc), fun e => hne (congrArg Prod.fst e),
              (hfac _ _).2 ⟨q', k', s', w, j', hq', hw, rfl, this.symm⟩, rfl⟩

end Verif.Factory
