import Verif.Circulate.FactorySurface

/-!
# C168, C169: the grid of the explicit factory can be circulated

`L` are the inserted triangles (vertex numbers), `p` the positions of the vertices. The factory sorts the triangles and orients them: `E`.
-/

namespace Verif.Circulate

open Verif Tri Factory Normals

variable {K : Type*} [Field K] [LinearOrder K]

/-- A planar mesh without self-contact: triangles that are not degenerate; two triangles with a common edge lie on different sides of it; the triangles at
a vertex are connected through edges at this vertex; in addition the conditions of `Factory.Mesh`: no edge in more than two triangles, no vertex in more than
two boundary edges. -/
structure PlaneMesh (p : Nat → V2 K) (L : List (Fin 3 → Nat)) : Prop where
  mesh : Factory.Mesh L
  nondeg : ∀ v ∈ L, (p (v 0)).orient (p (v 1)) (p (v 2)) ≠ 0
  sides : L.Pairwise fun v v' => ∀ i i' a b, a ≠ b → facetOf v i = {a, b} → facetOf v' i' = {a, b} →
    (p a).orient (p b) (p (v i)) * (p a).orient (p b) (p (v' i')) < 0
  fans : ∀ u, ∀ v ∈ L, ∀ v' ∈ L, (∃ i, v i = u) → (∃ i, v' i = u) →
    Relation.ReflTransGen (fun w w' => w' ∈ L ∧ ∃ i i', facetOf w i = facetOf w' i' ∧ u ∈ facetOf w i) v v'

/-- The orientation done by the factory. -/
abbrev oriented (p : Nat → V2 K) (v : Fin 3 → Nat) : Fin 3 → Nat := orient2 (fun i => (p i).x) (fun i => (p i).y) v

/-! ### lemmas -/

theorem orient_rot [IsStrictOrderedRing K] (a b c : V2 K) : a.orient b c = b.orient c a := by unfold V2.orient; ring

theorem oriented_pos [IsStrictOrderedRing K] (p : Nat → V2 K) (v : Fin 3 → Nat) (h : (p (v 0)).orient (p (v 1)) (p (v 2)) ≠ 0) (i : Fin 3) :
    0 < (p (oriented p v i)).orient (p (oriented p v (i + 1))) (p (oriented p v (i + 2))) := by
  have h0 := (C14_positive_2d p v h).2
  unfold Normals.Positive2 at h0
  have k : ∀ i : Fin 3, i = 0 ∨ i = 1 ∨ i = 2 := by decide
  rcases k i with rfl | rfl | rfl
  · exact h0
  · rw [show (1 : Fin 3) + 1 = 2 by decide, show (1 : Fin 3) + 2 = 0 by decide, ← orient_rot]; exact h0
  · rw [show (2 : Fin 3) + 1 = 0 by decide, show (2 : Fin 3) + 2 = 1 by decide, orient_rot]; exact h0

theorem facet_perm (v : Fin 3 → Nat) (σ : Equiv.Perm (Fin 3)) (i : Fin 3) : facetOf (v ∘ σ) i = facetOf v (σ i) := by
  unfold facetOf
  ext x
  simp only [Finset.mem_image, Finset.mem_erase, Finset.mem_univ, and_true, Function.comp]
  constructor
  · rintro ⟨j, hj, rfl⟩
    exact ⟨σ j, fun e => hj (σ.injective e), rfl⟩
  · rintro ⟨j, hj, rfl⟩
    exact ⟨σ.symm j, fun e => hj (by rw [← e, Equiv.apply_symm_apply]), by rw [Equiv.apply_symm_apply]⟩

theorem directed_of [IsStrictOrderedRing K] {p : Nat → V2 K} {L E : List (Fin 3 → Nat)} (hL : PlaneMesh p L) (hE : E.Perm (L.map (oriented p))) : Directed E := by
  have hR : (L.map (oriented p)).Pairwise fun v v' => ∀ i i' : Fin 3, v i = v' i' → v (i + 1) = v' (i' + 1) → False := by
    rw [List.pairwise_map]
    refine List.Pairwise.imp_of_mem ?_ hL.sides
    intro v v' hv hv' hs i i' e1 e2
    obtain ⟨σ, hσ⟩ := orient2_perm (fun i => (p i).x) (fun i => (p i).y) v
    obtain ⟨τ, hτ⟩ := orient2_perm (fun i => (p i).x) (fun i => (p i).y) v'
    have q1 := oriented_pos p v (hL.nondeg v hv) i
    have q2 := oriented_pos p v' (hL.nondeg v' hv') i'
    have k : ∀ i : Fin 3, i ≠ i + 1 := by decide
    have hinj : Function.Injective (oriented p v) := by
      unfold oriented
      rw [hσ]
      exact (hL.mesh.simplices v hv).comp σ.injective
    have := hs (σ (i + 2)) (τ (i' + 2)) (oriented p v i) (oriented p v (i + 1)) (fun e => k i (hinj e))
      (by rw [← facet_perm, ← hσ, facet_out]) (by rw [← facet_perm, ← hτ, facet_out, e1, e2])
    have r1 : v (σ (i + 2)) = oriented p v (i + 2) := by unfold oriented; rw [hσ]; rfl
    have r2 : v' (τ (i' + 2)) = oriented p v' (i' + 2) := by unfold oriented; rw [hτ]; rfl
    rw [r1, r2] at this
    rw [← e1, ← e2] at q2
    exact absurd this (not_lt.2 (mul_pos q1 q2).le)
  have hR' : E.Pairwise fun v v' => ∀ i i' : Fin 3, v i = v' i' → v (i + 1) = v' (i' + 1) → False := by
    refine (hE.pairwise_iff ?_).2 hR
    intro v v' h i i' e1 e2
    exact h i' i e1.symm e2.symm
  rw [List.pairwise_iff_getElem] at hR'
  intro h h' v v' i i' hv hv' e1 e2
  obtain ⟨l1, rfl⟩ := List.getElem?_eq_some_iff.1 hv
  obtain ⟨l2, rfl⟩ := List.getElem?_eq_some_iff.1 hv'
  rcases Nat.lt_trichotomy h h' with hlt | rfl | hlt
  · exact (hR' h h' l1 l2 hlt i i' e1 e2).elim
  · rfl
  · exact (hR' h' h l2 l1 hlt i' i e1.symm e2.symm).elim

theorem setAllFaces_spec (u : Nat) (E : List (Fin 3 → Nat)) : ∀ (vf : Nat → Option Nat) (h : Nat),
    (setAllFaces vf h E u = vf u ∧ ∀ v ∈ E, ∀ i, v i ≠ u) ∨ ∃ (k : Nat) (v : Fin 3 → Nat), setAllFaces vf h E u = some (h + k) ∧ E[k]? = some v ∧ ∃ i, v i = u := by
  induction E with
  | nil => intro vf h; left; exact ⟨rfl, by simp⟩
  | cons v E ih =>
    intro vf h
    unfold setAllFaces
    rcases ih (setFaces vf h v) (h + 1) with ⟨e, hn⟩ | ⟨k, w, e, hw, hi⟩
    · rw [e]
      unfold setFaces
      by_cases h2 : u = v 2
      · right; exact ⟨0, v, by simp [h2], rfl, 2, h2.symm⟩
      by_cases h1 : u = v 1
      · right; exact ⟨0, v, by simp [h1], rfl, 1, h1.symm⟩
      by_cases h0 : u = v 0
      · right; exact ⟨0, v, by simp [h0], rfl, 0, h0.symm⟩
      left
      refine ⟨by simp [h0, h1, h2], ?_⟩
      intro w hw i
      rcases List.mem_cons.1 hw with rfl | hw
      · have k : ∀ i : Fin 3, i = 0 ∨ i = 1 ∨ i = 2 := by decide
        rcases k i with rfl | rfl | rfl
        · exact fun e => h0 e.symm
        · exact fun e => h1 e.symm
        · exact fun e => h2 e.symm
      · exact hn w hw i
    · right
      exact ⟨k + 1, w, by rw [e]; congr 1; omega, by simpa using hw, hi⟩

theorem vertexFace_spec {E : List (Fin 3 → Nat)} {u : Nat} (hu : ∃ v ∈ E, ∃ i, v i = u) :
    ∃ (k : Nat) (v : Fin 3 → Nat), vertexFace E u = some k ∧ E[k]? = some v ∧ ∃ i, v i = u := by
  rcases setAllFaces_spec u E (fun _ => none) 0 with ⟨-, hn⟩ | ⟨k, v, e, h1, h2⟩
  · obtain ⟨v, hv, i, hi⟩ := hu
    exact absurd hi (hn v hv i)
  · exact ⟨k, v, by unfold vertexFace; rw [e]; simp, h1, h2⟩

section
variable [IsStrictOrderedRing K] {p : Nat → V2 K} {L E : List (Fin 3 → Nat)} {order : List (Finset Nat × Slot 2)}

theorem mem_oriented (hE : E.Perm (L.map (oriented p))) {u : Nat} : (∃ v ∈ E, ∃ i, v i = u) ↔ ∃ v ∈ L, ∃ i, v i = u := by
  constructor
  · rintro ⟨v, hv, i, rfl⟩
    obtain ⟨w, hw, rfl⟩ := List.mem_map.1 (hE.mem_iff.1 hv)
    obtain ⟨σ, hσ⟩ := orient2_perm (fun i => (p i).x) (fun i => (p i).y) w
    exact ⟨w, hw, σ i, by unfold oriented; rw [hσ]; rfl⟩
  · rintro ⟨w, hw, i, rfl⟩
    obtain ⟨σ, hσ⟩ := orient2_perm (fun i => (p i).x) (fun i => (p i).y) w
    refine ⟨oriented p w, hE.mem_iff.2 (List.mem_map.2 ⟨w, hw, rfl⟩), σ.symm i, ?_⟩
    unfold oriented
    rw [hσ]
    simp

/-- Circulating in either direction from the face of the vertex visits all faces at the vertex. -/
theorem all_faces (hL : PlaneMesh p L) (hE : E.Perm (L.map (oriented p))) (ho : order.Perm (createElements scheme2 E).st.fmap) {d : Fin 3} (hd : d ≠ 0)
    {u : Nat} (hu : ∃ v ∈ L, ∃ i, v i = u) :
    ∃ start l, vertexFace E u = some start ∧ around (ofTds (buildTds scheme2 E order)) d (some u) start = some l ∧ l.Nodup ∧
      ∀ h, h ∈ l ↔ At (ofTds (buildTds scheme2 E order)) (some u) h := by
  have hM := hL.mesh.of_perm hE (orient2_perm _ _)
  have hD := directed_of hL hE
  have S := surface hM hD ho
  have cases' := @cell_cases E order hM ho
  have elem := @cell_of_element E order hM ho
  generalize ofTds (buildTds scheme2 E order) = T at *
  obtain ⟨start, v0, hstart, hv0, i0, hi0⟩ := vertexFace_spec ((mem_oriented hE).2 hu)
  obtain ⟨l, hl, hnd, hmem, hat, hcl⟩ := S.around_spec (v := some u) hd (start := start) ⟨_, elem hv0, i0, by rw [hi0]⟩
  have adj : ∀ {h h' : Nat} {c c' : Fin 3 → Option Nat} {k k' : Fin 3}, h ∈ l → T.cells[h]? = some c → T.cells[h']? = some c' → facetOf c k = facetOf c' k' →
      some u ∈ facetOf c k → h' ∈ l := by
    intro h h' c c' k k' hh hc hc' hf hv
    by_cases hne : h' = h
    · rw [hne]; exact hh
    rcases S.adjacent hd hne hc hc' hf hv with e | e
    · exact (hcl h hh).1 h' e
    · exact (hcl h hh).2 h' e
  -- the inserted elements
  obtain ⟨w0, hw0, rfl⟩ := List.mem_map.1 (hE.mem_iff.1 (List.mem_of_getElem? hv0))
  have hfin : ∀ w ∈ L, (∃ i, w i = u) → ∀ h, E[h]? = some (oriented p w) → h ∈ l := by
    intro w hw hwu
    have hw0u : ∃ i, w0 i = u := by
      obtain ⟨σ, hσ⟩ := orient2_perm (fun i => (p i).x) (fun i => (p i).y) w0
      exact ⟨σ i0, by rw [← hi0]; unfold oriented; rw [hσ]; rfl⟩
    have hpath := hL.fans u w0 hw0 w hw hw0u hwu
    clear hwu
    suffices w ∈ L ∧ ∀ h, E[h]? = some (oriented p w) → h ∈ l from this.2
    clear hw
    induction hpath with
    | refl =>
      refine ⟨hw0, fun h hh => ?_⟩
      rw [hD h start _ _ 0 0 hh hv0 rfl rfl]
      exact hmem
    | @tail a b _ hab ih =>
      obtain ⟨hbL, i, i', hf, hu'⟩ := hab
      refine ⟨hbL, fun h' hh' => ?_⟩
      obtain ⟨ha, ih⟩ := ih
      obtain ⟨h, hlt, hh⟩ := List.getElem_of_mem (hE.mem_iff.2 (List.mem_map.2 ⟨a, ha, rfl⟩))
      have hh := List.getElem?_eq_some_iff.2 ⟨hlt, hh⟩
      obtain ⟨σ, hσ⟩ := orient2_perm (fun i => (p i).x) (fun i => (p i).y) a
      obtain ⟨τ, hτ⟩ := orient2_perm (fun i => (p i).x) (fun i => (p i).y) b
      have fa : facetOf (oriented p a) (σ.symm i) = facetOf a i := by
        unfold oriented; rw [hσ, facet_perm, Equiv.apply_symm_apply]
      have fb : facetOf (oriented p b) (τ.symm i') = facetOf b i' := by
        unfold oriented; rw [hτ, facet_perm, Equiv.apply_symm_apply]
      refine adj (k := σ.symm i) (k' := τ.symm i') (ih h hh) (elem hh) (elem hh') ?_ ?_
      · rw [facetOf_some, facetOf_some, fa, fb, hf]
      · rw [facetOf_some, fa]; exact Finset.mem_image_of_mem _ hu'
  have hfin' : ∀ {h : Nat} {v : Fin 3 → Nat}, E[h]? = some v → (∃ i, v i = u) → h ∈ l := by
    intro h v hv hi
    obtain ⟨w, hw, rfl⟩ := List.mem_map.1 (hE.mem_iff.1 (List.mem_of_getElem? hv))
    obtain ⟨i, hi⟩ := hi
    obtain ⟨σ, hσ⟩ := orient2_perm (fun i => (p i).x) (fun i => (p i).y) w
    exact hfin w hw ⟨σ i, by rw [← hi]; unfold oriented; rw [hσ]; rfl⟩ h hv
  refine ⟨start, l, hstart, hl, hnd, fun h => ⟨hat h, ?_⟩⟩
  rintro ⟨c, hc, i, hi⟩
  rcases cases' hc with ⟨v, hv, rfl⟩ | ⟨h0, v, j, hv, -, -, e0, e1, e2⟩
  · exact hfin' hv ⟨i, Option.some.inj hi⟩
  · have k3 : ∀ i : Fin 3, i = 0 ∨ i = 1 ∨ i = 2 := by decide
    have key : v j = u ∨ v (j + 1) = u := by
      rcases k3 i with rfl | rfl | rfl
      · right; rw [e0] at hi; exact Option.some.inj hi
      · left; rw [e1] at hi; exact Option.some.inj hi
      · rw [e2] at hi; exact absurd hi (by simp)
    have hh0 : h0 ∈ l := by
      rcases key with e | e
      · exact hfin' hv ⟨_, e⟩
      · exact hfin' hv ⟨_, e⟩
    have hf : facetOf (fun i => some (v i)) (j + 2) = facetOf c 2 := by
      have := facet3 c 0 2 (by decide)
      rw [show (0 : Fin 3) + 2 = 2 by decide, show (0 : Fin 3) - 2 = 1 by decide] at this
      have k : ∀ i : Fin 3, i - 2 = i + 1 := by decide
      rw [this, facet3 _ j 2 (by decide), k, e0, e1, Finset.pair_comm]
    refine adj hh0 (elem hv) hc hf ?_
    rw [facetOf_some, facet_out]
    refine Finset.mem_image_of_mem _ ?_
    rcases key with e | e <;> simp [e]

/-! ### the circulators of CGAL do what the iterators expect -/

theorem runs_cells (hL : PlaneMesh p L) (hE : E.Perm (L.map (oriented p))) (ho : order.Perm (createElements scheme2 E).st.fmap) {u : Nat}
    (hu : ∃ v ∈ L, ∃ i, v i = u) :
    ∃ l, incidentFaces (ofTds (buildTds scheme2 E order)) E u = some l ∧ Incident.RunsCells (ofTds (buildTds scheme2 E order)) true {some u} l ∧
      ∀ h, h ∈ l ↔ At (ofTds (buildTds scheme2 E order)) (some u) h := by
  obtain ⟨start, l, h1, h2, h3, h4⟩ := all_faces hL hE ho (d := 1) (by decide) hu
  refine ⟨l, by unfold incidentFaces; rw [h1]; exact h2, ⟨h3, fun h => ?_⟩, h4⟩
  rw [h4]
  unfold At
  simp

theorem runs_facets (hL : PlaneMesh p L) (hE : E.Perm (L.map (oriented p))) (ho : order.Perm (createElements scheme2 E).st.fmap) {u : Nat}
    (hu : ∃ v ∈ L, ∃ i, v i = u) :
    ∃ l, incidentEdges (ofTds (buildTds scheme2 E order)) E u = some l ∧ Incident.RunsFacets (ofTds (buildTds scheme2 E order)) true {some u} l := by
  obtain ⟨l, h1, ⟨hnd, -⟩, h4⟩ := runs_cells hL hE ho hu
  have S := surface (hL.mesh.of_perm hE (orient2_perm _ _)) (directed_of hL hE) ho
  generalize ofTds (buildTds scheme2 E order) = T at *
  have hedge : ∀ {h : Nat} {c : Fin 3 → Option Nat} {i : Fin 3}, T.cells[h]? = some c → c i = some u →
      edgeOf T (some u) h = (h, i + 1) ∧ T.facet h (i + 1) = {c i, c (i + 2)} := by
    intro h c i hc hi
    have k : ∀ i : Fin 3, i - 1 = i + 2 := by decide
    constructor
    · unfold edgeOf
      rw [hc]
      simp only
      rw [← hi, index_eq (S.injOf hc)]
    · unfold Tri.facet
      rw [hc]
      show facetOf c (i + 1) = _
      rw [facet3 c i 1 (by decide), k]
  refine ⟨l.map (edgeOf T (some u)), by unfold incidentEdges; rw [h1]; rfl, ?_, ?_, ?_⟩
  · rw [List.map_map]
    refine List.Nodup.map_on (fun h hh h' hh' e => ?_) hnd
    obtain ⟨c, hc, i, hi⟩ := (h4 h).1 hh
    obtain ⟨c', hc', i', hi'⟩ := (h4 h').1 hh'
    simp only [Function.comp] at e
    rw [(hedge hc hi).1, (hedge hc' hi').1] at e
    simp only at e
    rw [(hedge hc hi).2, (hedge hc' hi').2, hi, hi'] at e
    have hne : c (i + 2) ≠ some u := by
      intro q
      have k : ∀ i : Fin 3, i + 2 ≠ i := by decide
      exact k i (S.injOf hc (q.trans hi.symm))
    have hm : c (i + 2) ∈ ({some u, c' (i' + 2)} : Finset (Option Nat)) := by rw [← e]; simp
    simp only [Finset.mem_insert, Finset.mem_singleton] at hm
    rcases hm with q | q
    · exact absurd q hne
    · exact S.directed' (d := 2) (by decide) hc hc' (hi.trans hi'.symm) q
  · intro f hf
    obtain ⟨h, hh, rfl⟩ := List.mem_map.1 hf
    obtain ⟨c, hc, i, hi⟩ := (h4 h).1 hh
    rw [(hedge hc hi).1]
    exact (List.getElem?_eq_some_iff.1 hc).1
  · intro F
    rw [List.map_map, List.mem_map]
    constructor
    · rintro ⟨h, hh, rfl⟩
      obtain ⟨c, hc, i, hi⟩ := (h4 h).1 hh
      simp only [Function.comp]
      rw [(hedge hc hi).1]
      refine ⟨?_, ⟨h, i + 1, (List.getElem?_eq_some_iff.1 hc).1, rfl⟩, by simp⟩
      simp only
      rw [(hedge hc hi).2, hi]
      simp
    · rintro ⟨hu', ⟨h, k, hlt, rfl⟩, -⟩
      rw [Finset.singleton_subset_iff] at hu'
      have hc := List.getElem?_eq_getElem hlt
      have hfe : T.facet h k = facetOf T.cells[h] k := by unfold Tri.facet; rw [hc]
      rw [hfe] at hu' ⊢
      generalize T.cells[h] = c at hc hu' ⊢
      obtain ⟨i, hi, hiu⟩ := Finset.mem_image.1 hu'
      have hki : i ≠ k := (Finset.mem_erase.1 hi).1
      have k2 : ∀ i k : Fin 3, i ≠ k → k = i + 1 ∨ k = i + 2 := by decide
      rcases k2 i k hki with rfl | rfl
      · refine ⟨h, (h4 h).2 ⟨c, hc, i, hiu⟩, ?_⟩
        simp only [Function.comp]
        rw [(hedge hc hiu).1]
        simp only
        rw [(hedge hc hiu).2]
        have k : ∀ i : Fin 3, i - 1 = i + 2 := by decide
        rw [facet3 c i 1 (by decide), k]
      · obtain ⟨h', c', j, -, hc', -, e1, e2⟩ := S.turn_spec hc (d := 2) (by decide) i
        refine ⟨h', (h4 h').2 ⟨c', hc', j, e1.trans hiu⟩, ?_⟩
        simp only [Function.comp]
        rw [(hedge hc' (e1.trans hiu)).1]
        simp only
        rw [(hedge hc' (e1.trans hiu)).2, e1, e2, facet3 c i 2 (by decide)]

theorem runs_vertices (hL : PlaneMesh p L) (hE : E.Perm (L.map (oriented p))) (ho : order.Perm (createElements scheme2 E).st.fmap) {u : Nat}
    (hu : ∃ v ∈ L, ∃ i, v i = u) :
    ∃ l, incidentVertices (ofTds (buildTds scheme2 E order)) E u = some l ∧ Incident.RunsVertices (ofTds (buildTds scheme2 E order)) (some u) l := by
  obtain ⟨l, h1, ⟨hnd, -⟩, h4⟩ := runs_cells hL hE ho hu
  have S := surface (hL.mesh.of_perm hE (orient2_perm _ _)) (directed_of hL hE) ho
  generalize ofTds (buildTds scheme2 E order) = T at *
  have haft : ∀ {h : Nat} {c : Fin 3 → Option Nat} {i : Fin 3}, T.cells[h]? = some c → c i = some u → after T (some u) 1 h = c (i + 1) := by
    intro h c i hc hi
    rw [← hi, S.after_eq hc]
  refine ⟨l.map (after T (some u) 1), by unfold incidentVertices; rw [h1]; rfl, ?_, ?_⟩
  · refine List.Nodup.map_on (fun h hh h' hh' e => ?_) hnd
    obtain ⟨c, hc, i, hi⟩ := (h4 h).1 hh
    obtain ⟨c', hc', i', hi'⟩ := (h4 h').1 hh'
    rw [haft hc hi, haft hc' hi'] at e
    exact S.directed h h' c c' i i' hc hc' (hi.trans hi'.symm) e
  · intro w
    rw [List.mem_map]
    constructor
    · rintro ⟨h, hh, rfl⟩
      obtain ⟨c, hc, i, hi⟩ := (h4 h).1 hh
      rw [haft hc hi]
      have k : ∀ i : Fin 3, i ≠ i + 1 := by decide
      exact ⟨fun e => k i (S.injOf hc (hi.trans e)), c, List.mem_of_getElem? hc, ⟨i, hi⟩, i + 1, rfl⟩
    · rintro ⟨hne, c, hc, ⟨i, hi⟩, j, hj⟩
      obtain ⟨h, hlt, hh⟩ := List.getElem_of_mem hc
      have hc := List.getElem?_eq_some_iff.2 ⟨hlt, hh⟩
      have hij : i ≠ j := by rintro rfl; exact hne (hi.symm.trans hj)
      have k2 : ∀ i j : Fin 3, i ≠ j → j = i + 1 ∨ j = i - 1 := by decide
      rcases k2 i j hij with rfl | rfl
      · exact ⟨h, (h4 h).2 ⟨c, hc, i, hi⟩, by rw [haft hc hi, hj]⟩
      · obtain ⟨h', c', m, -, hc', -, e1, e2⟩ := S.turn_spec hc (d := 1) (by decide) i
        exact ⟨h', (h4 h').2 ⟨c', hc', m, e1.trans hi⟩, by rw [haft hc' (e1.trans hi), e2, hj]⟩

/-- An inserted element is found. -/
theorem isFace_true (hL : PlaneMesh p L) (hE : E.Perm (L.map (oriented p))) (ho : order.Perm (createElements scheme2 E).st.fmap) {v : Fin 3 → Nat}
    (hv : v ∈ L) : isFace (ofTds (buildTds scheme2 E order)) E (v 0) (v 1) (v 2) = some true := by
  obtain ⟨start, l, h1, h2, -, h4⟩ := all_faces hL hE ho (d := 2) (by decide) (u := v 0) ⟨v, hv, 0, rfl⟩
  have hM := hL.mesh.of_perm hE (orient2_perm _ _)
  have S := surface hM (directed_of hL hE) ho
  have elem := @cell_of_element E order hM ho
  generalize ofTds (buildTds scheme2 E order) = T at *
  obtain ⟨σ, hσ⟩ := orient2_perm (fun i => (p i).x) (fun i => (p i).y) v
  obtain ⟨h, hlt, hh⟩ := List.getElem_of_mem (hE.mem_iff.2 (List.mem_map.2 ⟨v, hv, rfl⟩))
  have hc := elem (List.getElem?_eq_some_iff.2 ⟨hlt, hh⟩)
  obtain ⟨c, hceq⟩ : ∃ c : Fin 3 → Option Nat, c = fun i => some (oriented p v i) := ⟨_, rfl⟩
  rw [← hceq] at hc
  have hcσ : ∀ j, c (σ.symm j) = some (v j) := by
    intro j
    rw [hceq]
    show some (orient2 _ _ v (σ.symm j)) = some (v j)
    rw [hσ]
    simp
  obtain ⟨i, hi⟩ : ∃ i, i = σ.symm 0 := ⟨_, rfl⟩
  have hi0 : c i = some (v 0) := by rw [hi, hcσ]
  have n01 : σ.symm 1 ≠ i := by rw [hi]; exact fun e => absurd (σ.symm.injective e) (by decide)
  have n02 : σ.symm 2 ≠ i := by rw [hi]; exact fun e => absurd (σ.symm.injective e) (by decide)
  have n12 : σ.symm 2 ≠ σ.symm 1 := fun e => absurd (σ.symm.injective e) (by decide)
  have key : ∀ a b i : Fin 3, a ≠ i → b ≠ i → b ≠ a → (a = i + 2 ∧ b = i + 1) ∨ (a = i + 1 ∧ b = i + 2) := by decide
  have cases2 : (c (i + 2) = some (v 1) ∧ c (i + 1) = some (v 2)) ∨ (c (i + 1) = some (v 1) ∧ c (i + 2) = some (v 2)) := by
    rcases key _ _ i n01 n02 n12 with ⟨q1, q2⟩ | ⟨q1, q2⟩
    · left; exact ⟨by rw [← q1, hcσ], by rw [← q2, hcσ]⟩
    · right; exact ⟨by rw [← q1, hcσ], by rw [← q2, hcσ]⟩
  -- the face found by `is_edge`
  have hfound : ∀ {h' : Nat} {c' : Fin 3 → Option Nat} {j : Fin 3}, T.cells[h']? = some c' → c' j = some (v 0) → c' (j + 2) = some (v 1) →
      isEdge T E (v 0) (v 1) = some (some h') := by
    intro h' c' j hc' e1 e2
    unfold isEdge
    rw [h1]
    simp only
    rw [h2, Option.map_some]
    congr 1
    have hmem : h' ∈ l := (h4 h').2 ⟨c', hc', j, e1⟩
    have haft : (after T (some (v 0)) 2 h' == some (v 1)) = true := by rw [← e1, S.after_eq hc', e2]; simp
    cases hf : l.find? (fun h => after T (some (v 0)) 2 h == some (v 1)) with
    | none => exact absurd haft (by simpa using List.find?_eq_none.1 hf h' hmem)
    | some h'' =>
      have hp := List.find?_some hf
      obtain ⟨c'', hc'', j', e1'⟩ := (h4 h'').1 (List.mem_of_find?_eq_some hf)
      rw [← e1', S.after_eq hc'', beq_iff_eq] at hp
      exact congrArg some (S.directed' (d := 2) (by decide) hc'' hc' (e1'.trans e1.symm) (hp.trans e2.symm))
  unfold isFace
  rcases cases2 with ⟨q1, q2⟩ | ⟨q1, q2⟩
  · rw [hfound hc hi0 q1]
    simp only
    rw [← hi0, S.after_eq hc, q2, if_pos rfl]
  · obtain ⟨h', c', j, ht, hc', hne, e1, e2⟩ := S.turn_spec hc (d := 2) (by decide) i
    have k1 : ∀ i : Fin 3, i - 2 = i + 1 := by decide
    rw [k1, q1] at e2
    rw [hfound hc' (e1.trans hi0) e2]
    simp only
    split
    · rfl
    · have hb := S.turn_back hc (d := 2) (by decide) i ht
      rw [show (-2 : Fin 3) = 1 by decide, hi0] at hb
      rw [hb]
      simp only
      congr 1
      rw [decide_eq_true_eq]
      unfold third
      rw [hc]
      simp only
      rw [← hi0, ← q1, index_eq (S.injOf hc), index_eq (S.injOf hc)]
      simp only
      have k2 : ∀ i : Fin 3, -(i + (i + 1)) = i + 2 := by decide
      rw [k2, q2]

/-! ## C168 -/

/-- C168: `createGrid` succeeds: all inserted elements are found. -/
theorem C168_created (hL : PlaneMesh p L) (hE : E.Perm (L.map (oriented p))) (ho : order.Perm (createElements scheme2 E).st.fmap) :
    createGrid L E order = .grid (ofTds (buildTds scheme2 E order)) := by
  have h : ∀ L', (∀ v ∈ L', v ∈ L) → checkAll (ofTds (buildTds scheme2 E order)) E L' = some true := by
    intro L'
    induction L' with
    | nil => intro _; rfl
    | cons v L' ih =>
      intro hs
      unfold checkAll
      rw [isFace_true hL hE ho (hs v (by simp))]
      exact ih fun w hw => hs w (by simp [hw])
  unfold createGrid
  simp only
  rw [h L fun v hv => hv]

/-- C168: `incidentElements(vertex)` on the created grid visits exactly the elements with this vertex, each once. -/
theorem C168_elements (hL : PlaneMesh p L) (hE : E.Perm (L.map (oriented p))) (ho : order.Perm (createElements scheme2 E).st.fmap) (flag : Nat → Bool)
    (segs : List (List Nat)) (u : Nat) (hu : ∃ v ∈ L, ∃ i, v i = u) :
    ∃ circ l, incidentFaces (ofTds (buildTds scheme2 E order)) E u = some circ ∧
      Incident.incidentElements ⟨ofTds (buildTds scheme2 E order), flag, segs⟩ circ circ = some l ∧ l.Nodup ∧
      ∀ h, h ∈ l ↔ ∃ v, E[h]? = some v ∧ ∃ i, v i = u := by
  obtain ⟨circ, h1, h2, -⟩ := runs_cells hL hE ho hu
  obtain ⟨l, h3, h4, h5⟩ := Incident.C89_elements ⟨ofTds (buildTds scheme2 E order), flag, segs⟩ _ circ circ h2 h2
  refine ⟨circ, l, h1, h3, h4, fun h => ?_⟩
  rw [h5]
  have hM := hL.mesh.of_perm hE (orient2_perm _ _)
  constructor
  · rintro ⟨c, hc, hf, hs⟩
    rcases cell_cases hM ho hc with ⟨v, hv, rfl⟩ | ⟨h0, v, j, hv, -, -, e0, e1, e2⟩
    · obtain ⟨i, hi⟩ := hs (some u) (by simp)
      exact ⟨v, hv, i, Option.some.inj hi⟩
    · exact absurd e2 (hf 2)
  · rintro ⟨v, hv, i, hi⟩
    refine ⟨_, cell_of_element hM ho hv, by simp, ?_⟩
    intro s hs
    rw [Finset.mem_singleton] at hs
    exact ⟨i, by rw [hs, hi]⟩

/-- C168: `incidentFacets(vertex)` on the created grid visits exactly the edges of inserted elements at this vertex, each once. -/
theorem C168_facets (hL : PlaneMesh p L) (hE : E.Perm (L.map (oriented p))) (ho : order.Perm (createElements scheme2 E).st.fmap) (flag : Nat → Bool)
    (segs : List (List Nat)) (u : Nat) (hu : ∃ v ∈ L, ∃ i, v i = u) :
    ∃ circ l, incidentEdges (ofTds (buildTds scheme2 E order)) E u = some circ ∧
      Incident.incidentFacets ⟨ofTds (buildTds scheme2 E order), flag, segs⟩ circ circ = some l ∧
      (l.map fun f => (ofTds (buildTds scheme2 E order)).facet f.1 f.2).Nodup ∧
      ∀ F, F ∈ l.map (fun f => (ofTds (buildTds scheme2 E order)).facet f.1 f.2) ↔ ∃ v ∈ L, ∃ i, u ∈ facetOf v i ∧ F = (facetOf v i).image some := by
  obtain ⟨circ, h1, h2⟩ := runs_facets hL hE ho hu
  obtain ⟨l, h3, h4, h5⟩ := Incident.C89_facets ⟨ofTds (buildTds scheme2 E order), flag, segs⟩ _ circ circ h2 h2
  refine ⟨circ, l, h1, h3, h4, fun F => ?_⟩
  rw [h5]
  have hM := hL.mesh.of_perm hE (orient2_perm _ _)
  have hEL : (∃ v ∈ E, ∃ i, u ∈ facetOf v i ∧ F = (facetOf v i).image some) ↔ ∃ v ∈ L, ∃ i, u ∈ facetOf v i ∧ F = (facetOf v i).image some := by
    constructor
    · rintro ⟨v, hv, i, hi⟩
      obtain ⟨w, hw, rfl⟩ := List.mem_map.1 (hE.mem_iff.1 hv)
      obtain ⟨σ, hσ⟩ := orient2_perm (fun i => (p i).x) (fun i => (p i).y) w
      unfold oriented at hi
      rw [hσ, facet_perm] at hi
      exact ⟨w, hw, σ i, hi⟩
    · rintro ⟨w, hw, i, hi⟩
      obtain ⟨σ, hσ⟩ := orient2_perm (fun i => (p i).x) (fun i => (p i).y) w
      refine ⟨oriented p w, hE.mem_iff.2 (List.mem_map.2 ⟨w, hw, rfl⟩), σ.symm i, ?_⟩
      unfold oriented
      rw [hσ, facet_perm, Equiv.apply_symm_apply]
      exact hi
  rw [← hEL]
  constructor
  · rintro ⟨hs, ⟨h, k, hlt, rfl⟩, hf⟩
    have hlt : h < (ofTds (buildTds scheme2 E order)).cells.length := hlt
    have hc := List.getElem?_eq_getElem hlt
    have hfe : (ofTds (buildTds scheme2 E order)).facet h k = facetOf (ofTds (buildTds scheme2 E order)).cells[h] k := by unfold Tri.facet; rw [hc]
    simp only at hs hf ⊢
    rw [hfe] at hs hf ⊢
    rw [Finset.singleton_subset_iff] at hs
    generalize (ofTds (buildTds scheme2 E order)).cells[h] = c at *
    rcases cell_cases hM ho hc with ⟨v, hv, rfl⟩ | ⟨h0, v, j, hv, -, -, e0, e1, e2⟩
    · rw [facetOf_some] at hs ⊢
      obtain ⟨x, hx, e⟩ := Finset.mem_image.1 hs
      exact ⟨v, List.mem_of_getElem? hv, k, by rw [← Option.some.inj e]; exact hx, rfl⟩
    · have hk : k = 2 := by
        by_contra hne
        apply hf
        rw [← e2]
        exact Finset.mem_image.2 ⟨2, Finset.mem_erase.2 ⟨fun e => hne e.symm, Finset.mem_univ _⟩, rfl⟩
      subst hk
      have hfeq : facetOf c 2 = facetOf (fun i => some (v i)) (j + 2) := by
        have := facet3 c 0 2 (by decide)
        rw [show (0 : Fin 3) + 2 = 2 by decide, show (0 : Fin 3) - 2 = 1 by decide] at this
        have k : ∀ i : Fin 3, i - 2 = i + 1 := by decide
        rw [this, facet3 _ j 2 (by decide), k, e0, e1, Finset.pair_comm]
      rw [hfeq, facetOf_some] at hs ⊢
      obtain ⟨x, hx, e⟩ := Finset.mem_image.1 hs
      exact ⟨v, List.mem_of_getElem? hv, j + 2, by rw [← Option.some.inj e]; exact hx, rfl⟩
  · rintro ⟨v, hv, i, hi, rfl⟩
    obtain ⟨h, hlt, hh⟩ := List.getElem_of_mem hv
    have hc := cell_of_element hM ho (List.getElem?_eq_some_iff.2 ⟨hlt, hh⟩)
    refine ⟨Finset.singleton_subset_iff.2 (Finset.mem_image_of_mem _ hi), ⟨h, i, (List.getElem?_eq_some_iff.1 hc).1, ?_⟩, by simp⟩
    show Tri.facet _ h i = _
    unfold Tri.facet
    rw [hc, ← facetOf_some]

/-- C168: `incidentVertices(vertex)` on the created grid visits exactly the other vertices of the elements with this vertex, each once. -/
theorem C168_vertices (hL : PlaneMesh p L) (hE : E.Perm (L.map (oriented p))) (ho : order.Perm (createElements scheme2 E).st.fmap) (u : Nat)
    (hu : ∃ v ∈ L, ∃ i, v i = u) :
    ∃ circ l, incidentVertices (ofTds (buildTds scheme2 E order)) E u = some circ ∧ Incident.incidentVertices false circ circ = some l ∧ l.Nodup ∧ none ∉ l ∧
      ∀ w : Nat, some w ∈ l ↔ w ≠ u ∧ ∃ v ∈ L, (∃ i, v i = u) ∧ ∃ i, v i = w := by
  obtain ⟨circ, h1, h2⟩ := runs_vertices hL hE ho hu
  obtain ⟨l, h3, h4, h5⟩ := Incident.C89_vertices _ (some u) false circ circ h2 h2
  refine ⟨circ, l, h1, h3, h4, ?_, fun w => ?_⟩
  · intro hn
    have := (h5 none).1 hn
    simp at this
  rw [h5]
  have hM := hL.mesh.of_perm hE (orient2_perm _ _)
  have hEL : (∃ v ∈ E, (∃ i, v i = u) ∧ ∃ i, v i = w) ↔ ∃ v ∈ L, (∃ i, v i = u) ∧ ∃ i, v i = w := by
    constructor
    · rintro ⟨v, hv, ⟨i, hi⟩, j, hj⟩
      obtain ⟨x, hx, rfl⟩ := List.mem_map.1 (hE.mem_iff.1 hv)
      obtain ⟨σ, hσ⟩ := orient2_perm (fun i => (p i).x) (fun i => (p i).y) x
      unfold oriented at hi hj
      rw [hσ] at hi hj
      exact ⟨x, hx, ⟨σ i, hi⟩, σ j, hj⟩
    · rintro ⟨x, hx, ⟨i, hi⟩, j, hj⟩
      obtain ⟨σ, hσ⟩ := orient2_perm (fun i => (p i).x) (fun i => (p i).y) x
      refine ⟨oriented p x, hE.mem_iff.2 (List.mem_map.2 ⟨x, hx, rfl⟩), ⟨σ.symm i, ?_⟩, σ.symm j, ?_⟩
      · unfold oriented; rw [hσ]; simpa using hi
      · unfold oriented; rw [hσ]; simpa using hj
  rw [← hEL]
  constructor
  · rintro ⟨⟨hne, c, hc, ⟨i, hi⟩, j, hj⟩, -⟩
    refine ⟨fun e => hne (by rw [e]), ?_⟩
    obtain ⟨h, hlt, hh⟩ := List.getElem_of_mem hc
    rcases cell_cases hM ho (List.getElem?_eq_some_iff.2 ⟨hlt, hh⟩) with ⟨v, hv, rfl⟩ | ⟨h0, v, m, hv, -, -, e0, e1, e2⟩
    · exact ⟨v, List.mem_of_getElem? hv, ⟨i, Option.some.inj hi⟩, j, Option.some.inj hj⟩
    · have k3 : ∀ i : Fin 3, i = 0 ∨ i = 1 ∨ i = 2 := by decide
      have get : ∀ {i : Fin 3} {x : Nat}, c i = some x → ∃ k, v k = x := by
        intro i x hi
        rcases k3 i with rfl | rfl | rfl
        · rw [e0] at hi; exact ⟨_, Option.some.inj hi⟩
        · rw [e1] at hi; exact ⟨_, Option.some.inj hi⟩
        · rw [e2] at hi; exact absurd hi (by simp)
      exact ⟨v, List.mem_of_getElem? hv, get hi, get hj⟩
  · rintro ⟨hne, v, hv, ⟨i, hi⟩, j, hj⟩
    obtain ⟨h, hlt, hh⟩ := List.getElem_of_mem hv
    have hc := cell_of_element hM ho (List.getElem?_eq_some_iff.2 ⟨hlt, hh⟩)
    exact ⟨⟨fun e => hne (Option.some.inj e).symm, _, List.mem_of_getElem? hc, ⟨i, by rw [hi]⟩, j, by rw [hj]⟩, by simp⟩

end

end Verif.Circulate
