import Verif.Factory.Matching

/-!
# Connectivity built by the explicit factory: lemmas
-/

namespace Verif.Factory

variable {d : Nat}

/-- The facet of an element opposite to vertex `i`, as a set of vertices. -/
def facetOf {α : Type*} [DecidableEq α] {d : Nat} (v : Fin (d + 1) → α) (i : Fin (d + 1)) : Finset α :=
  (Finset.univ.erase i).image v

/-- Element number `h` has the facet `F`. -/
def HasFacet (E : List (Fin (d + 1) → Nat)) (h : Nat) (F : Finset Nat) : Prop :=
  ∃ v i, E[h]? = some v ∧ facetOf v i = F

/-- No facet belongs to more than two elements. -/
def Conforming (E : List (Fin (d + 1) → Nat)) : Prop :=
  ∀ F h1 h2 h3, HasFacet E h1 F → HasFacet E h2 F → HasFacet E h3 F → h1 = h2 ∨ h1 = h3 ∨ h2 = h3

/-- `F` is a boundary facet: exactly one element has it. -/
def IsBoundary (E : List (Fin (d + 1) → Nat)) (F : Finset Nat) : Prop :=
  ∃ h, HasFacet E h F ∧ ∀ h', HasFacet E h' F → h' = h

/-- `R` is a ridge (a facet without one of its vertices) of `F`. -/
def IsRidge (R F : Finset Nat) : Prop := ∃ x ∈ F, R = F.erase x

/-- The boundary is a manifold: no ridge belongs to more than two boundary facets. -/
def BoundaryManifold (E : List (Fin (d + 1) → Nat)) : Prop :=
  ∀ R F1 F2 F3, IsBoundary E F1 → IsBoundary E F2 → IsBoundary E F3 → IsRidge R F1 → IsRidge R F2 → IsRidge R F3 →
    F1 = F2 ∨ F1 = F3 ∨ F2 = F3

/-- What a scheme must do; proved for 2D and 3D in `scheme2_valid`, `scheme3_valid`. -/
structure Scheme.Valid (S : Scheme d) : Prop where
  facets : ∀ v k i, (k, i) ∈ S.facets v ↔ k = facetOf v i
  facetsNodup : ∀ v, ((S.facets v).map Prod.snd).Nodup
  infImage : ∀ v fi, Finset.univ.image (S.inf v fi) = facetOf v fi
  infInj : ∀ v fi, Function.Injective v → Function.Injective (S.inf v fi)
  ifacets : ∀ w k j, (k, j) ∈ S.ifacets w ↔ k = (Finset.univ.erase j).image w
  ifacetsNodup : ∀ w, ((S.ifacets w).map Prod.snd).Nodup

/-! ### the loops as operation lists -/

def elemOps (S : Scheme d) : Nat → List (Fin (d + 1) → Nat) → List (Op d)
  | _, [] => []
  | h, v :: E => (S.facets v).map (fun f => Op.facet f.1 (h, f.2)) ++ elemOps S (h + 1) E

theorem foldl_facets (fs : List (Finset Nat × Fin (d + 1))) (h : Nat) (st : MState d) :
    fs.foldl (fun st f => addFacet st f.1 (h, f.2)) st
      = (fs.map (fun f => Op.facet f.1 (h, f.2))).foldl Op.run st := by
  rw [List.foldl_map]; rfl

theorem createElements_aux (S : Scheme d) (E : List (Fin (d + 1) → Nat)) (t : Tds d) :
    (E.foldl (createElement S) t).cells = t.cells ++ E.map (fun v i => some (v i)) ∧
    (E.foldl (createElement S) t).st = (elemOps S t.cells.length E).foldl Op.run t.st := by
  induction E generalizing t with
  | nil => simp [elemOps]
  | cons v E ih =>
    rw [List.foldl_cons]
    obtain ⟨h1, h2⟩ := ih (createElement S t v)
    rw [h1, h2]
    constructor
    · simp [createElement]
    · simp only [elemOps, List.foldl_append, createElement, List.length_append, List.length_cons, List.length_nil]
      rw [foldl_facets]

theorem mem_elemOps (S : Scheme d) (E : List (Fin (d + 1) → Nat)) (h0 : Nat) (k : Finset Nat) (h : Nat)
    (i : Fin (d + 1)) :
    Op.facet k (h, i) ∈ elemOps S h0 E ↔ h0 ≤ h ∧ ∃ v, E[h - h0]? = some v ∧ (k, i) ∈ S.facets v := by
  induction E generalizing h0 with
  | nil => simp [elemOps]
  | cons v E ih =>
    rw [elemOps, List.mem_append, ih (h0 + 1)]
    simp only [List.mem_map, Op.facet.injEq, Prod.mk.injEq, Prod.exists]
    constructor
    · rintro (⟨k', i', hm, rfl, rfl, rfl⟩ | ⟨hle, w, hw, hm⟩)
      · exact ⟨le_refl _, v, by simp, hm⟩
      · refine ⟨by omega, w, ?_, hm⟩
        have : h - h0 = (h - (h0 + 1)) + 1 := by omega
        rw [this, List.getElem?_cons_succ]; exact hw
    · rintro ⟨hle, w, hw, hm⟩
      rcases Nat.eq_or_lt_of_le hle with rfl | hlt
      · left
        rw [Nat.sub_self, List.getElem?_cons_zero] at hw
        cases hw
        exact ⟨k, i, hm, rfl, rfl, rfl⟩
      · right
        refine ⟨hlt, w, ?_, hm⟩
        have : h - h0 = (h - (h0 + 1)) + 1 := by omega
        rw [this, List.getElem?_cons_succ] at hw; exact hw

theorem no_link_elemOps (S : Scheme d) (E : List (Fin (d + 1) → Nat)) (h0 : Nat) (s s' : Slot d) :
    Op.link s s' ∉ elemOps S h0 E := by
  induction E generalizing h0 with
  | nil => simp [elemOps]
  | cons v E ih =>
    rw [elemOps, List.mem_append, not_or]
    refine ⟨by simp, ih _⟩

theorem slots_facets (fs : List (Finset Nat × Fin (d + 1))) (h : Nat) :
    (fs.map (fun f => Op.facet f.1 (h, f.2))).flatMap Op.slots = fs.map (fun f => (h, f.2)) := by
  induction fs with
  | nil => rfl
  | cons f fs ih => rw [List.map_cons, List.flatMap_cons, ih]; rfl

theorem nodup_facets (fs : List (Finset Nat × Fin (d + 1))) (h : Nat) (hnd : (fs.map Prod.snd).Nodup) :
    (fs.map (fun f => (h, f.2))).Nodup := by
  have : fs.map (fun f => (h, f.2)) = (fs.map Prod.snd).map (fun i => (h, i)) := by simp
  rw [this]
  exact hnd.map (fun a b hab => (Prod.mk.inj hab).2)

theorem elemOps_slots_ge (S : Scheme d) (E : List (Fin (d + 1) → Nat)) (h0 : Nat) (s : Slot d)
    (hs : s ∈ (elemOps S h0 E).flatMap Op.slots) : h0 ≤ s.1 := by
  obtain ⟨o, ho, hso⟩ := List.mem_flatMap.1 hs
  cases o with
  | link a b => exact absurd ho (no_link_elemOps S E h0 a b)
  | facet k a =>
    simp only [Op.slots, List.mem_cons, List.not_mem_nil, or_false] at hso
    subst hso
    exact ((mem_elemOps S E h0 k s.1 s.2).1 ho).1

theorem elemOps_nodup {S : Scheme d} (hS : S.Valid) (E : List (Fin (d + 1) → Nat)) (h0 : Nat) :
    ((elemOps S h0 E).flatMap Op.slots).Nodup := by
  induction E generalizing h0 with
  | nil => simp [elemOps]
  | cons v E ih =>
    rw [elemOps, List.flatMap_append, slots_facets]
    refine List.nodup_append.2 ⟨nodup_facets _ _ (hS.facetsNodup v), ih _, ?_⟩
    intro a ha b hb hab
    have := elemOps_slots_ge S E (h0 + 1) b hb
    simp only [List.mem_map] at ha
    obtain ⟨f, -, rfl⟩ := ha
    subst hab
    simp at this

theorem facetOf_inj {α : Type*} [DecidableEq α] {v : Fin (d + 1) → α} (hv : Function.Injective v) {i j : Fin (d + 1)}
    (h : facetOf v i = facetOf v j) : i = j := by
  by_contra hne
  have h1 : v j ∈ facetOf v i := Finset.mem_image.2 ⟨j, Finset.mem_erase.2 ⟨fun e => hne e.symm, Finset.mem_univ _⟩, rfl⟩
  rw [h] at h1
  obtain ⟨k, hk, he⟩ := Finset.mem_image.1 h1
  exact (Finset.mem_erase.1 hk).1 (hv he)

/-! ### first stage -/

/-- All elements have distinct vertices. -/
def Simplices (E : List (Fin (d + 1) → Nat)) : Prop := ∀ v ∈ E, Function.Injective v

theorem Simplices.get {E : List (Fin (d + 1) → Nat)} (hE : Simplices E) {h : Nat} {v} (hv : E[h]? = some v) :
    Function.Injective v := hE v (List.mem_of_getElem? hv)

theorem mem_elemOps0 {S : Scheme d} (hS : S.Valid) (E : List (Fin (d + 1) → Nat)) (k : Finset Nat) (s : Slot d) :
    Op.facet k s ∈ elemOps S 0 E ↔ ∃ v, E[s.1]? = some v ∧ k = facetOf v s.2 := by
  obtain ⟨h, i⟩ := s
  rw [mem_elemOps]
  simp [hS.facets]

theorem elemOps_two {S : Scheme d} (hS : S.Valid) {E : List (Fin (d + 1) → Nat)} (hE : Simplices E)
    (hc : Conforming E) : AtMostTwo (elemOps S 0 E) := by
  intro k s1 s2 s3 m1 m2 m3
  rw [mem_elemOps0 hS] at m1 m2 m3
  obtain ⟨v1, e1, f1⟩ := m1
  obtain ⟨v2, e2, f2⟩ := m2
  obtain ⟨v3, e3, f3⟩ := m3
  have key : ∀ (s s' : Slot d) (v v'), E[s.1]? = some v → E[s'.1]? = some v' → k = facetOf v s.2 → k = facetOf v' s'.2 →
      s.1 = s'.1 → s = s' := by
    intro s s' v v' hv hv' hk hk' hs
    rw [hs, hv'] at hv
    cases hv
    exact Prod.ext hs (facetOf_inj (hE.get hv') (hk.symm.trans hk'))
  rcases hc k s1.1 s2.1 s3.1 ⟨v1, s1.2, e1, f1.symm⟩ ⟨v2, s2.2, e2, f2.symm⟩ ⟨v3, s3.2, e3, f3.symm⟩ with h | h | h
  · exact Or.inl (key _ _ _ _ e1 e2 f1 f2 h)
  · exact Or.inr (Or.inl (key _ _ _ _ e1 e3 f1 f3 h))
  · exact Or.inr (Or.inr (key _ _ _ _ e2 e3 f2 f3 h))

theorem createElements_good {S : Scheme d} (hS : S.Valid) {E : List (Fin (d + 1) → Nat)} (hE : Simplices E)
    (hc : Conforming E) :
    (createElements S E).cells = E.map (fun v i => some (v i)) ∧
    Good (fun _ => none) (elemOps S 0 E) (createElements S E).st := by
  obtain ⟨h1, h2⟩ := createElements_aux S E { cells := [], st := { nbr := fun _ => none, fmap := [] } }
  refine ⟨by simpa [createElements] using h1, ?_⟩
  have : (createElements S E).st = (elemOps S 0 E).foldl Op.run { nbr := fun _ => none, fmap := [] } := by
    simpa [createElements] using h2
  rw [this]
  exact run_good _ _ (elemOps_nodup hS E 0) (fun _ _ => rfl) (elemOps_two hS hE hc)

/-- The entries left in `neighborMap` are the boundary facets with their slots. -/
theorem mem_fmap {S : Scheme d} (hS : S.Valid) {E : List (Fin (d + 1) → Nat)} (hE : Simplices E)
    (hc : Conforming E) (k : Finset Nat) (s : Slot d) :
    (k, s) ∈ (createElements S E).st.fmap ↔ ∃ v, E[s.1]? = some v ∧ k = facetOf v s.2 ∧
      ∀ h', HasFacet E h' k → h' = s.1 := by
  rw [(createElements_good hS hE hc).2.fmap, mem_elemOps0 hS]
  constructor
  · rintro ⟨⟨v, hv, hk⟩, hu⟩
    refine ⟨v, hv, hk, ?_⟩
    rintro h' ⟨w, i, hw, hf⟩
    have := hu (h', i) ((mem_elemOps0 hS E k (h', i)).2 ⟨w, hw, hf.symm⟩)
    rw [← this]
  · rintro ⟨v, hv, hk, hu⟩
    refine ⟨⟨v, hv, hk⟩, ?_⟩
    intro s' hs'
    obtain ⟨w, hw, hf⟩ := (mem_elemOps0 hS E k s').1 hs'
    have h1 := hu s'.1 ⟨w, s'.2, hw, hf.symm⟩
    rw [h1, hv] at hw
    cases hw
    exact Prod.ext h1 (facetOf_inj (hE.get hv) (hf.symm.trans hk))

/-! ### second stage -/

def infOps1 (S : Scheme d) (E : List (Fin (d + 1) → Nat)) (c : Nat) (s : Slot d) : List (Op d) :=
  match E[s.1]? with
  | none => []
  | some v => Op.link s (c, Fin.last d) ::
      ((S.ifacets (S.inf v s.2)).map fun f => (f.1, f.2.castSucc)).map (fun f => Op.facet f.1 (c, f.2))

def infOps (S : Scheme d) (E : List (Fin (d + 1) → Nat)) : Nat → List (Finset Nat × Slot d) → List (Op d)
  | _, [] => []
  | c, e :: order => infOps1 S E c e.2 ++ infOps S E (c + 1) order

/-- The infinite element of a boundary facet. -/
def infCell (S : Scheme d) (E : List (Fin (d + 1) → Nat)) (e : Finset Nat × Slot d) : Fin (d + 1) → Option Nat :=
  match E[e.2.1]? with
  | none => fun _ => none
  | some v => Fin.snoc (α := fun _ => Option Nat) (fun i => some (S.inf v e.2.2 i)) none

theorem createInfinite_aux (S : Scheme d) (E : List (Fin (d + 1) → Nat)) (order : List (Finset Nat × Slot d))
    (hv : ∀ e ∈ order, e.2.1 < E.length) (t : Tds d) :
    (order.foldl (fun t e => createInfinite S E t e.2) t).cells = t.cells ++ order.map (infCell S E) ∧
    (order.foldl (fun t e => createInfinite S E t e.2) t).st = (infOps S E t.cells.length order).foldl Op.run t.st := by
  induction order generalizing t with
  | nil => simp [infOps]
  | cons e order ih =>
    rw [List.foldl_cons]
    obtain ⟨h1, h2⟩ := ih (fun e he => hv e (List.mem_cons_of_mem _ he)) (createInfinite S E t e.2)
    have hlt := hv e (List.mem_cons_self ..)
    have hsome : E[e.2.1]? = some (E[e.2.1]'hlt) := List.getElem?_eq_getElem hlt
    have hcells : (createInfinite S E t e.2).cells = t.cells ++ [infCell S E e] := by
      simp only [createInfinite, infCell, hsome]
    rw [h1, h2, hcells]
    constructor
    · simp
    · simp only [infOps, List.foldl_append, List.length_append, List.length_cons, List.length_nil]
      congr 1
      simp only [createInfinite, infOps1, hsome, List.foldl_cons]
      rw [List.foldl_map, List.foldl_map]
      rfl

theorem mem_infOps (S : Scheme d) (E : List (Fin (d + 1) → Nat)) (order : List (Finset Nat × Slot d)) (c0 : Nat)
    (o : Op d) : o ∈ infOps S E c0 order ↔ ∃ q e, order[q]? = some e ∧ o ∈ infOps1 S E (c0 + q) e.2 := by
  induction order generalizing c0 with
  | nil => simp [infOps]
  | cons e order ih =>
    rw [infOps, List.mem_append, ih]
    constructor
    · rintro (h | ⟨q, e', hq, hm⟩)
      · exact ⟨0, e, rfl, h⟩
      · exact ⟨q + 1, e', hq, by rw [show c0 + (q + 1) = c0 + 1 + q by omega]; exact hm⟩
    · rintro ⟨q, e', hq, hm⟩
      rcases q with _ | q
      · left
        rw [List.getElem?_cons_zero] at hq
        cases hq
        exact hm
      · right
        rw [List.getElem?_cons_succ] at hq
        exact ⟨q, e', hq, by rw [show c0 + 1 + q = c0 + (q + 1) by omega]; exact hm⟩

theorem castSucc_ne_last' (j : Fin d) : j.castSucc ≠ Fin.last d := Fin.castSucc_ne_last j

theorem infOps1_slots {S : Scheme d} (E : List (Fin (d + 1) → Nat)) (c : Nat) (s t : Slot d)
    (ht : t ∈ (infOps1 S E c s).flatMap Op.slots) : t = s ∨ t.1 = c := by
  obtain ⟨o, ho, hto⟩ := List.mem_flatMap.1 ht
  unfold infOps1 at ho
  cases hE : E[s.1]? with
  | none => rw [hE] at ho; simp at ho
  | some v =>
    rw [hE] at ho
    simp only [List.mem_cons, List.mem_map] at ho
    rcases ho with rfl | ⟨f, -, rfl⟩
    · simp only [Op.slots, List.mem_cons, List.not_mem_nil, or_false] at hto
      rcases hto with rfl | rfl
      · exact Or.inl rfl
      · exact Or.inr rfl
    · simp only [Op.slots, List.mem_cons, List.not_mem_nil, or_false] at hto
      subst hto; exact Or.inr rfl

theorem infOps1_nodup {S : Scheme d} (hS : S.Valid) (E : List (Fin (d + 1) → Nat)) (c : Nat) (s : Slot d)
    (hs : s.1 < c) : ((infOps1 S E c s).flatMap Op.slots).Nodup := by
  unfold infOps1
  cases hE : E[s.1]? with
  | none => simp
  | some v =>
    simp only [List.flatMap_cons]
    rw [slots_facets]
    have e1 : (Op.link s (c, Fin.last d)).slots = [s, (c, Fin.last d)] := rfl
    rw [e1]
    refine List.nodup_append.2 ⟨?_, ?_, ?_⟩
    · have : s ≠ (c, Fin.last d) := by
        rintro rfl; simp at hs
      simp [this]
    · apply nodup_facets
      rw [List.map_map]
      have e2 : ((Prod.snd : Finset Nat × Fin (d + 1) → Fin (d + 1)) ∘ fun f : Finset Nat × Fin d => (f.1, f.2.castSucc))
          = Fin.castSucc ∘ Prod.snd := rfl
      rw [e2, ← List.map_map]
      exact (hS.ifacetsNodup _).map (Fin.castSucc_injective d)
    · intro a ha b hb hab
      subst hab
      simp only [List.mem_map] at hb
      obtain ⟨f, ⟨g, -, rfl⟩, rfl⟩ := hb
      simp only [List.mem_cons, List.not_mem_nil, or_false, Prod.mk.injEq] at ha
      rcases ha with rfl | ⟨-, h⟩
      · simp at hs
      · exact Fin.castSucc_ne_last _ h

theorem infOps_nodup {S : Scheme d} (hS : S.Valid) (E : List (Fin (d + 1) → Nat)) (order : List (Finset Nat × Slot d))
    (c0 : Nat) (hv : ∀ e ∈ order, e.2.1 < c0) (hnd : (order.map Prod.snd).Nodup) :
    ((infOps S E c0 order).flatMap Op.slots).Nodup := by
  induction order generalizing c0 with
  | nil => simp [infOps]
  | cons e order ih =>
    rw [infOps, List.flatMap_append]
    rw [List.map_cons, List.nodup_cons] at hnd
    have hv0 := hv e (List.mem_cons_self ..)
    refine List.nodup_append.2 ⟨infOps1_nodup hS E c0 e.2 hv0,
      ih (c0 + 1) (fun e he => Nat.lt_succ_of_lt (hv e (List.mem_cons_of_mem _ he))) hnd.2, ?_⟩
    intro a ha b hb hab
    subst hab
    have h1 := infOps1_slots E c0 e.2 a ha
    obtain ⟨o, ho, hao⟩ := List.mem_flatMap.1 hb
    obtain ⟨q, e', hq, hm⟩ := (mem_infOps S E order (c0 + 1) o).1 ho
    have h2 := infOps1_slots E (c0 + 1 + q) e'.2 a (mem_slots hm hao)
    have he' := List.mem_of_getElem? hq
    have hv' := hv e' (List.mem_cons_of_mem _ he')
    rcases h1 with rfl | h1 <;> rcases h2 with h2 | h2
    · exact hnd.1 (h2 ▸ List.mem_map_of_mem he')
    · omega
    · rw [h2] at h1; omega
    · omega

end Verif.Factory
