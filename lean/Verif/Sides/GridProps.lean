import Verif.Sides.Grid

/-!
# Adaptation keeps the sides of the interface
-/

namespace Verif.Sides

open Finset Verif.Refine Verif.MoveGeo

/-! ## Points of segments -/

theorem hull_pair (pos : ℕ → Fin 2 → ℝ) (a b : ℕ) : convexHull ℝ (pos '' (({a, b} : Finset ℕ) : Set ℕ)) = segment ℝ (pos a) (pos b) := by
  rw [Finset.coe_insert, Finset.coe_singleton, Set.image_pair, convexHull_pair]

theorem segment_split {x y z : Fin 2 → ℝ} {t : ℝ} (h0 : 0 < t) (h1 : t < 1) (hz : z = t • x + (1 - t) • y) : segment ℝ x y = segment ℝ z x ∪ segment ℝ z y := by
  have hzm : z ∈ segment ℝ x y := ⟨t, 1 - t, h0.le, by linarith, by ring, hz.symm⟩
  apply Set.Subset.antisymm
  · rintro p ⟨l, r, hl, hr, hlr, rfl⟩
    obtain rfl : r = 1 - l := by linarith
    by_cases h : l ≤ t
    · refine Or.inr ⟨l / t, 1 - l / t, by positivity, ?_, by ring, ?_⟩
      · rw [sub_nonneg, div_le_one h0]
        exact h
      · subst hz
        rw [smul_add, smul_smul, smul_smul, add_assoc, ← add_smul]
        congr 2
        · field_simp
        · field_simp
          ring
    · have h' : 0 < 1 - t := by linarith
      refine Or.inl ⟨(1 - l) / (1 - t), 1 - (1 - l) / (1 - t), by positivity, ?_, by ring, ?_⟩
      · rw [sub_nonneg, div_le_one h']
        linarith
      · subst hz
        rw [smul_add, smul_smul, smul_smul, add_right_comm, ← add_smul]
        congr 2
        · field_simp
          ring
        · field_simp
  · exact Set.union_subset ((convex_segment x y).segment_subset hzm (left_mem_segment ℝ x y)) ((convex_segment x y).segment_subset hzm (right_mem_segment ℝ x y))

theorem interfaceSet_iff {M : Mesh (Fin 2 → ℝ) 2} {s : InterfaceOps.State} (hs : InterfaceOps.Ok s) {p : Fin 2 → ℝ} :
    p ∈ interfaceSet M (interface s) ↔ ∃ a b, (Map.find s.segs (InterfaceOps.key a b)).isSome ∧ p ∈ segment ℝ (M.pos a) (M.pos b) := by
  constructor
  · rintro ⟨F, ⟨a, b, rfl, hb⟩, hp⟩
    rw [InterfaceOps.bulk_true hs] at hb
    rw [hull_pair] at hp
    exact ⟨a, b, hb, hp⟩
  · rintro ⟨a, b, hb, hp⟩
    rw [← InterfaceOps.bulk_true hs] at hb
    rw [← hull_pair] at hp
    exact ⟨{a, b}, ⟨a, b, rfl, hb⟩, hp⟩

/-! ## The mesh -/

theorem fresh_next {g : Grid} (h : Valid g) {m : ℕ} (hm : g.s.next ≤ m) : Fresh g.M m := by
  intro c hc i hi
  have := InterfaceOps.vertex_lt h.ok (vertex_edges h.edges h.mesh.conforming.inj hc (mem_verts.2 ⟨i, hi⟩))
  omega

theorem once_verts {d : ℕ} {cells : List (Fin (d + 1) → ℕ)} : (cells.Pairwise fun c c' => Set.range c ≠ Set.range c') ↔ cells.Pairwise fun c c' => verts c ≠ verts c' :=
  List.Pairwise.iff fun _ _ => range_verts

theorem proper_insertAt {M : Mesh (Fin 2 → ℝ) 2} (h : Proper ℝ M) {F : Finset ℕ} {m : ℕ} {x : Fin 2 → ℝ} {μ : ℕ → ℝ} (hin : Inside M.pos F x μ) (hm : Fresh M m) (hmF : m ∉ F) :
    Proper ℝ (insertAt M F m x) :=
  ⟨conforming_insertAt hin hm h.conforming.inj hmF h.conforming, positive_insertAt hin hm h.conforming.inj h.positive,
    once_verts.2 (distinct_insertAt hm h.conforming.inj (once_verts.1 h.once))⟩

/-- The elements that fill the hole are not elements that stay. -/
theorem filled_ne_kept {d : ℕ} {M : Mesh (Fin d → ℝ) d} {v : ℕ} {N : List (Fin (d + 1) → ℕ)} (hM : Conforming ℝ M) (hN : Fills ℝ M v N) (hv : Inner M v) {n c : Fin (d + 1) → ℕ}
    (hn : n ∈ N) (hc : c ∈ M.cells) : verts n ≠ verts c := by
  intro heq
  have hvn : v ∉ verts n := fun h => by
    obtain ⟨i, hi⟩ := mem_verts.1 h
    exact (hN.link n hn i).1 hi
  obtain ⟨x, μ, hin⟩ := middle M.pos (F := verts c) ⟨c 0, mem_verts.2 ⟨0, rfl⟩⟩
  obtain ⟨f, hf, hvf, hx⟩ := (hN.covers hv x).1 ⟨n, hn, (hull_iff _ _ _).2 ⟨μ, heq ▸ hin.toIsWeight, heq ▸ hin.point⟩⟩
  have hsub : verts c ⊆ verts f := carrier_subset hM hc hf (Finset.Subset.refl _) (Finset.Subset.refl _) hin (by rwa [← range_image])
  have := Finset.eq_of_subset_of_card_le hsub (by rw [card_verts (hM.inj c hc), card_verts (hM.inj f hf)])
  rw [heq, this] at hvn
  exact hvn (mem_verts.2 hvf)

theorem proper_removeAt {M : Mesh (Fin 2 → ℝ) 2} (h : Proper ℝ M) {v : ℕ} {N : List (Fin 3 → ℕ)} (hN : Fills ℝ M v N) (hv : Inner M v)
    (hp : ∀ n ∈ N, 0 < signedVolume fun i => M.pos (n i)) (hd : N.Pairwise fun n n' => Set.range n ≠ Set.range n') : Proper ℝ (removeAt M v N) := by
  refine ⟨conforming_removeAt h.conforming hN hv, fun c hc => ?_, ?_⟩
  · rcases mem_removeAt.1 hc with ⟨hc, -⟩ | hc
    · exact h.positive c hc
    · exact hp c hc
  · unfold removeAt Once
    rw [List.pairwise_append]
    exact ⟨h.once.filter _, hd, fun c hc n hn => range_verts.2 (filled_ne_kept h.conforming hN hv hn (List.mem_filter.1 hc).1).symm⟩

/-! ## Interface elements at a vertex that is removed -/

theorem join_segs {s s' : InterfaceOps.State} (h : InterfaceOps.Ok s) {v o o' : ℕ} {star : List ℕ} (hstar : InterfaceOps.Star s.edges v star)
    (hrm : InterfaceOps.removeFromInterface s v star = (s', some (o, o'))) :
    (Map.find s.segs (InterfaceOps.key v o)).isSome ∧ (Map.find s.segs (InterfaceOps.key v o')).isSome ∧ s'.flag = s.flag ∧ s'.edges = s.edges ∧ s'.next = s.next ∧
      ∀ k, (Map.find s'.segs k).isSome ↔ k = InterfaceOps.key o o' ∨ ((Map.find s.segs k).isSome ∧ k ≠ InterfaceOps.key v o ∧ k ≠ InterfaceOps.key v o') := by
  obtain ⟨f1, f2, f3⟩ := InterfaceOps.filter_incident h hstar
  obtain ⟨c1, c2, -⟩ := InterfaceOps.collect_spec s.segs v _ f1
  rw [f3] at c2
  unfold InterfaceOps.removeFromInterface at hrm
  simp only at hrm
  split at hrm
  · rename_i p q hpq
    simp only [Prod.mk.injEq, Option.some.injEq] at hrm
    obtain ⟨rfl, rfl, rfl⟩ := hrm
    rw [c2] at hpq
    obtain ⟨-, -, mp, hmp⟩ : InterfaceOps.Incident s v p := (f2 p).1 (by rw [hpq]; simp)
    obtain ⟨-, -, mq, hmq⟩ : InterfaceOps.Incident s v q := (f2 q).1 (by rw [hpq]; simp)
    refine ⟨by rw [show InterfaceOps.key v p = RefElem.sortIds [v, p] from rfl, hmp]; rfl, by rw [show InterfaceOps.key v q = RefElem.sortIds [v, q] from rfl, hmq]; rfl, rfl, rfl, rfl,
      fun k => ?_⟩
    rw [hpq] at c1 ⊢
    by_cases hk : k = InterfaceOps.key p q
    · subst hk
      cases hf : Map.find (InterfaceOps.collect s.segs v [p, q]).1 (InterfaceOps.key p q) with
      | none => simp [Map.find_insert_new hf]
      | some x => simp [Map.insert, hf]
    · simp only [Map.find_insert_ne hk, c1, hk, false_or, List.mem_cons, List.not_mem_nil, or_false, exists_eq_or_imp, exists_eq_left]
      by_cases h1 : k = InterfaceOps.key v p
      · simp [h1]
      · by_cases h2 : k = InterfaceOps.key v q <;> simp [h1, h2]
  · simp at hrm

/-! ## One step -/

theorem inside_edge_fresh {g : Grid} (h : Valid g) {a b m : ℕ} {t : ℝ} (hab : InterfaceOps.key a b ∈ g.s.edges) (h0 : 0 < t) (h1 : t < 1) (hm : g.s.next ≤ m) :
    a ≠ b ∧ a ≠ m ∧ b ≠ m ∧ Inside g.M.pos {a, b} (t • g.M.pos a + (1 - t) • g.M.pos b) (fun v => if v = a then t else if v = b then 1 - t else 0) := by
  obtain ⟨hab, ha, hb⟩ := InterfaceOps.edge_lt h.ok hab
  exact ⟨hab, by omega, by omega, inside_edge _ hab h0 h1⟩

theorem join_mesh {g g' : Grid} (h : Valid g) {v o o' : ℕ} (hj : Join g v o o' g') : Proper ℝ g'.M ∧ domain ℝ g'.M = domain ℝ g.M := by
  obtain ⟨hfl, hv, hN, hp, hd, hE', hstar, hrm, he⟩ := hj
  exact ⟨proper_removeAt h.mesh hN hv hp hd, domain_removeAt hN hv⟩

theorem join_valid {g g' : Grid} (h : Valid g) {v o o' : ℕ} (hj : Join g v o o' g') : Valid g' := by
  have hm' := (join_mesh h hj).1
  have hinj := h.mesh.conforming.inj
  have hinj' := hm'.conforming.inj
  obtain ⟨hfl, hv, hN, hp, hd, hE', hstar, hrm, he⟩ := hj
  exact ⟨hm', hE', InterfaceOps.ok_remove (InterfaceOps.Remove.join hfl hstar hrm (remove_contract hinj h.edges hN hv hinj' hE') he) h.ok⟩

theorem step_mesh {g g' : Grid} (h : Valid g) (hs : Step g g') : Proper ℝ g'.M ∧ domain ℝ g'.M = domain ℝ g.M := by
  cases hs with
  | edge hab h0 h1 hm hE' hi hn =>
    obtain ⟨hne, ham, hbm, hin⟩ := inside_edge_fresh h hab h0 h1 hm
    have hf := fresh_next h hm
    exact ⟨proper_insertAt h.mesh hin hf (by simp [ham.symm, hbm.symm]), domain_insertAt hin hf h.mesh.conforming.inj⟩
  | cell hc hx hn hm hE' =>
    obtain ⟨μ, hin⟩ := inside_element (h.mesh.conforming.inj _ hc) hx hn
    have hf := fresh_next h hm
    refine ⟨proper_insertAt h.mesh hin hf fun hmc => ?_, domain_insertAt hin hf h.mesh.conforming.inj⟩
    obtain ⟨i, hi⟩ := mem_verts.1 hmc
    exact hf _ hc i hi
  | remove hfl hv hN hp hd hE' => exact ⟨proper_removeAt h.mesh hN hv hp hd, domain_removeAt hN hv⟩
  | join hj hst => exact join_mesh h hj

theorem step_valid {g g' : Grid} (h : Valid g) (hs : Step g g') : Valid g' := by
  have hm' := (step_mesh h hs).1
  refine ⟨hm', ?_, ?_⟩
  · cases hs with
    | join hj hst => exact (join_valid h hj).edges
    | _ => assumption
  · have hinj := h.mesh.conforming.inj
    have hinj' := hm'.conforming.inj
    cases hs with
    | @edge a b m s' E' t hab h0 h1 hm hE' hi hn =>
      have hc := split_contract hinj h.edges (fresh_next h hm) hinj' hE' hab
      cases hb : InterfaceOps.isInterfaceBulk g.s [a, b] with
      | true =>
        rw [InterfaceOps.bulk_true h.ok] at hb
        obtain ⟨k, hk⟩ := Option.isSome_iff_exists.1 hb
        obtain ⟨-, fa, fb, -⟩ := h.ok.flags hk
        exact (InterfaceOps.ok_split h.ok hm hc fa fb (hi (by rw [InterfaceOps.bulk_true h.ok]; exact hb))).1
      | false =>
        rw [hn hb]
        rw [InterfaceOps.bulk_true h.ok, Option.isSome_eq_false_iff, Option.isNone_iff_eq_none] at hb
        refine InterfaceOps.ok_of h.ok.nodup ?_ (InterfaceOps.split_edges h.ok hm hc)
        intro k j hk
        obtain ⟨x, y, hxy, hkk, hx, hy, hin⟩ := h.ok.pair' hk
        refine ⟨x, y, hxy, hkk, hx, hy, ?_⟩
        obtain ⟨-, opp, -, he⟩ := hc
        refine (he k).2 (Or.inl ⟨hin, fun e => ?_⟩)
        simp only at hk
        rw [e, hb] at hk
        exact absurd hk (by simp)
    | @cell c m x E' hc hx hn hm hE' =>
      have hc := add_contract hinj h.edges hc (fresh_next h hm) hinj' hE'
      refine InterfaceOps.ok_of h.ok.nodup ?_ (InterfaceOps.add_edges h.ok hm hc)
      intro k j hk
      obtain ⟨x, y, hxy, hkk, hx, hy, hin⟩ := h.ok.pair' hk
      obtain ⟨opp, -, he⟩ := hc
      exact ⟨x, y, hxy, hkk, hx, hy, (he k).2 (Or.inl hin)⟩
    | remove hfl hv hN hp hd hE' => exact InterfaceOps.ok_remove (InterfaceOps.Remove.bulk hfl (remove_contract hinj h.edges hN hv hinj' hE')) h.ok
    | join hj hst => exact (join_valid h hj).ok

theorem facets_of {g : Grid} (h : Valid g) : Facets g.M (interface g.s) := by
  rintro F ⟨a, b, rfl, hb⟩
  rw [InterfaceOps.bulk_true h.ok] at hb
  obtain ⟨k, hk⟩ := Option.isSome_iff_exists.1 hb
  obtain ⟨hab, -, -, he⟩ := h.ok.flags hk
  obtain ⟨-, c, hc, ha, hb⟩ := (mem_edges h.edges h.mesh.conforming.inj).1 he
  exact ⟨Finset.card_pair hab, c, hc, Finset.insert_subset ha (Finset.singleton_subset_iff.2 hb)⟩

theorem step_interface {g g' : Grid} (h : Valid g) (hs : Step g g') : interfaceSet g'.M (interface g'.s) = interfaceSet g.M (interface g.s) := by
  have hv' := step_valid h hs
  have hlt : ∀ x y, (Map.find g.s.segs (InterfaceOps.key x y)).isSome → x < g.s.next ∧ y < g.s.next := by
    intro x y hb
    obtain ⟨k, hk⟩ := Option.isSome_iff_exists.1 hb
    obtain ⟨-, -, -, he⟩ := h.ok.flags hk
    exact (InterfaceOps.edge_lt h.ok he).2
  ext p
  rw [interfaceSet_iff hv'.ok, interfaceSet_iff h.ok]
  have old : ∀ {F : Finset ℕ} {m : ℕ} {x : Fin 2 → ℝ}, g.s.next ≤ m → ∀ u w, (Map.find g.s.segs (InterfaceOps.key u w)).isSome →
      segment ℝ ((insertAt g.M F m x).pos u) ((insertAt g.M F m x).pos w) = segment ℝ (g.M.pos u) (g.M.pos w) := by
    intro F m x hm u w hb
    obtain ⟨h1, h2⟩ := hlt u w hb
    simp only [insertAt]
    rw [Function.update_of_ne (by omega), Function.update_of_ne (by omega)]
  cases hs with
  | @edge a b m s' E' t hab h0 h1 hm hE' hi hn =>
    cases hb : InterfaceOps.isInterfaceBulk g.s [a, b] with
    | false =>
      rw [hn hb]
      constructor
      · rintro ⟨u, w, hf, hp⟩
        exact ⟨u, w, hf, by rwa [old hm u w hf] at hp⟩
      · rintro ⟨u, w, hf, hp⟩
        exact ⟨u, w, hf, by rwa [old hm u w hf]⟩
    | true =>
      obtain ⟨s'', e1, -, -, -, e5⟩ := InterfaceOps.insertInInterface_spec g.s a b m (h.ok.fresh hm)
      rw [hi hb] at e1
      cases e1
      rw [InterfaceOps.bulk_true h.ok] at hb
      obtain ⟨hne, ham, hbm, -⟩ := inside_edge_fresh h hab h0 h1 hm
      have hsegs : ∀ k, (Map.find s'.segs k).isSome ↔ k = InterfaceOps.key m a ∨ k = InterfaceOps.key m b ∨ (k ≠ InterfaceOps.key a b ∧ (Map.find g.s.segs k).isSome) := by
        intro k
        rw [e5]
        by_cases k1 : k = InterfaceOps.key m a
        · simp [k1]
        · by_cases k2 : k = InterfaceOps.key m b
          · simp [k2]
          · by_cases k3 : k = InterfaceOps.key a b
            · simp only [k3, if_true, ne_eq, not_true_eq_false, false_and, or_false]
              rw [← k3]
              simp [k1, k2]
            · simp [k1, k2, k3]
      have hsplit := segment_split (x := g.M.pos a) (y := g.M.pos b) h0 h1 rfl
      have pm : (insertAt g.M {a, b} m (t • g.M.pos a + (1 - t) • g.M.pos b)).pos m = t • g.M.pos a + (1 - t) • g.M.pos b := by simp [insertAt]
      have pa : (insertAt g.M {a, b} m (t • g.M.pos a + (1 - t) • g.M.pos b)).pos a = g.M.pos a := by simp [insertAt, Function.update_of_ne ham]
      have pb : (insertAt g.M {a, b} m (t • g.M.pos a + (1 - t) • g.M.pos b)).pos b = g.M.pos b := by simp [insertAt, Function.update_of_ne hbm]
      have kseg : ∀ {P : ℕ → Fin 2 → ℝ} {u w u' w' : ℕ}, InterfaceOps.key u w = InterfaceOps.key u' w' → segment ℝ (P u) (P w) = segment ℝ (P u') (P w') := by
        intro P u w u' w' hk
        rcases InterfaceOps.key_eq_iff.1 hk with ⟨rfl, rfl⟩ | ⟨rfl, rfl⟩
        · rfl
        · exact segment_symm _ _ _
      constructor
      · rintro ⟨u, w, hf, hp⟩
        rcases (hsegs _).1 hf with hk | hk | ⟨-, hf⟩
        · rw [kseg hk, pm, pa] at hp
          exact ⟨a, b, hb, hsplit ▸ Or.inl hp⟩
        · rw [kseg hk, pm, pb] at hp
          exact ⟨a, b, hb, hsplit ▸ Or.inr hp⟩
        · exact ⟨u, w, hf, by rwa [old hm u w hf] at hp⟩
      · rintro ⟨u, w, hf, hp⟩
        by_cases hk : InterfaceOps.key u w = InterfaceOps.key a b
        · rw [kseg hk, hsplit] at hp
          rcases hp with hp | hp
          · exact ⟨m, a, (hsegs _).2 (Or.inl rfl), by simpa only [pm, pa] using hp⟩
          · exact ⟨m, b, (hsegs _).2 (Or.inr (Or.inl rfl)), by simpa only [pm, pb] using hp⟩
        · exact ⟨u, w, (hsegs _).2 (Or.inr (Or.inr ⟨hk, hf⟩)), by simpa only [old hm u w hf] using hp⟩
  | @cell c m x E' hc hx hn hm hE' =>
    constructor
    · rintro ⟨u, w, hf, hp⟩
      exact ⟨u, w, hf, by rwa [old hm u w hf] at hp⟩
    · rintro ⟨u, w, hf, hp⟩
      exact ⟨u, w, hf, by rwa [old hm u w hf]⟩
  | remove hfl hv hN hp hd hE' => exact Iff.rfl
  | @join v o o' _ hj hst =>
    obtain ⟨hfl, hv, hN, hp, hd, hE', hstar, hrm, he⟩ := hj
    obtain ⟨j1, j2, -, -, -, hsegs⟩ := join_segs h.ok hstar hrm
    obtain ⟨t, h0, h1, hpos⟩ := hst
    have hsplit := segment_split h0 h1 hpos
    have kseg : ∀ {P : ℕ → Fin 2 → ℝ} {u w u' w' : ℕ}, InterfaceOps.key u w = InterfaceOps.key u' w' → segment ℝ (P u) (P w) = segment ℝ (P u') (P w') := by
      intro P u w u' w' hk
      rcases InterfaceOps.key_eq_iff.1 hk with ⟨rfl, rfl⟩ | ⟨rfl, rfl⟩
      · rfl
      · exact segment_symm _ _ _
    constructor
    · rintro ⟨u, w, hf, hp⟩
      have hp : p ∈ segment ℝ (g.M.pos u) (g.M.pos w) := hp
      rcases (hsegs _).1 hf with hk | ⟨hf, -, -⟩
      · rw [kseg hk, hsplit] at hp
        rcases hp with hp | hp
        · exact ⟨v, o, j1, hp⟩
        · exact ⟨v, o', j2, hp⟩
      · exact ⟨u, w, hf, hp⟩
    · rintro ⟨u, w, hf, hp⟩
      by_cases k1 : InterfaceOps.key u w = InterfaceOps.key v o
      · rw [kseg k1] at hp
        exact ⟨o, o', (hsegs _).2 (Or.inl rfl), show p ∈ segment ℝ (g.M.pos o) (g.M.pos o') from hsplit ▸ Or.inl hp⟩
      · by_cases k2 : InterfaceOps.key u w = InterfaceOps.key v o'
        · rw [kseg k2] at hp
          exact ⟨o, o', (hsegs _).2 (Or.inl rfl), show p ∈ segment ℝ (g.M.pos o) (g.M.pos o') from hsplit ▸ Or.inr hp⟩
        · exact ⟨u, w, (hsegs _).2 (Or.inr ⟨hf, k1, k2⟩), hp⟩

end Verif.Sides
