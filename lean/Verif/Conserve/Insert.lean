import Verif.Conserve.Geometry

/-!
# What the insertion loop keeps
-/

namespace Verif.Conserve

open Refine Clip MeasureTheory

/-- A turn of the insertion loop that inserts a vertex does so strictly inside the edge of the request or inside an element. -/
theorem step_detail {M M' : TMesh} {r : Req (ℝ × ℝ)} (h : Step (K := ℝ) M r M') (hinj : ∀ c ∈ M.cells, Function.Injective c)
    (hedge : ∀ e, r.edge = some e → ∃ t : ℝ, 0 < t ∧ t < 1 ∧ r.point = t • M.pos e.1 + (1 - t) • M.pos e.2)
    (hcell : r.edge = none → InElement ℝ M r.point) :
    M' = M ∨ ∃ F m x, ∃ μ : ℕ → ℝ, M' = insertAt M F m x ∧ Inside M.pos F x μ ∧ Fresh M m ∧ m ∉ F ∧ 2 ≤ F.card ∧
      ((∃ a b, r.edge = some (a, b) ∧ F = {a, b}) ∨ (r.edge = none ∧ x = r.point ∧ ∃ c ∈ M.cells, F = verts c)) ∧ ∃ c ∈ M.cells, F ⊆ verts c := by
  cases h with
  | dropped => exact Or.inl rfl
  | @edge a b x m c hc hab ha hb hm =>
    obtain ⟨t, h0, h1, hx⟩ := hedge (a, b) rfl
    simp only at hx
    refine Or.inr ⟨{a, b}, m, x, _, rfl, hx ▸ inside_edge M.pos hab h0 h1, hm, ?_, by rw [Finset.card_pair hab], Or.inl ⟨a, b, rfl, rfl⟩, c, hc, ?_⟩
    · rw [Finset.mem_insert, Finset.mem_singleton, not_or]
      obtain ⟨i, rfl⟩ := ha
      obtain ⟨j, rfl⟩ := hb
      exact ⟨fun e => hm c hc i e.symm, fun e => hm c hc j e.symm⟩
    · intro v hv
      rw [Finset.mem_insert, Finset.mem_singleton] at hv
      rcases hv with rfl | rfl
      · exact mem_verts.2 ha
      · exact mem_verts.2 hb
  | @cell x m c hc hx hm =>
    obtain ⟨-, hn⟩ := hcell rfl
    obtain ⟨μ, hμ⟩ := inside_element (hinj c hc) hx (hn c hc)
    refine Or.inr ⟨verts c, m, x, μ, rfl, hμ, hm, ?_, ?_, Or.inr ⟨rfl, rfl, c, hc, rfl⟩, c, hc, subset_rfl⟩
    · intro h
      obtain ⟨i, hi⟩ := mem_verts.1 h
      exact hm c hc i hi
    · rw [card_verts (hinj c hc)]
      omega
  | outside hc hx =>
    obtain ⟨⟨c', hc', hx'⟩, -⟩ := hcell rfl
    exact absurd hx' (hx c' hc')

/-- The zones of the insertions. -/
def InsertZones (M : TMesh) (outer : ℕ → Finset ℕ) (rs : List (Req (ℝ × ℝ))) (zones : List (List ℕ)) : Prop :=
  ∀ (i : ℕ) r, rs[i]? = some r → ∃ z, zones[i]? = some z ∧ ZoneOf M outer r z

/-- What holds during the insertion loop, which started with `M`, after new vertices `new`. -/
structure InvI (M : TMesh) (zones : List (List ℕ)) (new : List (Option ℕ)) (M1 : TMesh) : Prop where
  conf : Conforming ℝ M1
  ccw : Ccw M1
  distinct : Distinct M1.cells
  dom : domain ℝ M1 = domain ℝ M
  pos : ∀ v ∈ vertices M, M1.pos v = M.pos v
  keep : ∀ v ∈ vertices M, v ∈ vertices M1
  newMem : ∀ m, some m ∈ new → m ∈ vertices M1 ∧ m ∉ vertices M
  sub : ∀ v ∈ vertices M1, v ∈ vertices M ∨ some v ∈ new
  nest : ∀ e ∈ M1.cells, ∃ (k : ℕ) (c : Fin 3 → ℕ), M.cells[k]? = some c ∧ Refine.hull ℝ M1 e ⊆ Refine.hull ℝ M c ∧ (∀ v ∈ verts e, v ∈ vertices M → v ∈ verts c) ∧
    (∀ (i : ℕ) m, new[i]? = some (some m) → m ∈ verts e → ∃ z, zones[i]? = some z ∧ k ∈ z) ∧ (e = c ∨ ∃ m, some m ∈ new ∧ m ∈ verts e)
  gone : ∀ o ∈ M.cells, o ∈ M1.cells ∨ ∃ m ∈ vertices M1, m ∉ vertices M ∧ M1.pos m ∈ Refine.hull ℝ M o

theorem InvI.start {M : TMesh} (zones : List (List ℕ)) (hM : Conforming ℝ M) (hccw : Ccw M) (hd : Distinct M.cells) : InvI M zones [] M := by
  refine ⟨hM, hccw, hd, rfl, fun _ _ => rfl, fun _ h => h, by simp, fun _ h => Or.inl h, ?_, fun o ho => Or.inl ho⟩
  intro e he
  obtain ⟨k, hk⟩ := List.mem_iff_getElem?.1 he
  exact ⟨k, e, hk, subset_rfl, fun _ h _ => h, by simp, Or.inl rfl⟩

theorem getElem?_snoc {α : Type*} {l : List α} {a b : α} {i : ℕ} (h : (l ++ [a])[i]? = some b) : l[i]? = some b ∨ (i = l.length ∧ b = a) := by
  rcases lt_trichotomy i l.length with hi | hi | hi
  · rw [List.getElem?_append_left hi] at h
    exact Or.inl h
  · subst hi
    simp at h
    exact Or.inr ⟨rfl, h.symm⟩
  · rw [List.getElem?_eq_none (by simp; omega)] at h
    cases h

theorem InvI.dropped {M M1 : TMesh} {zones : List (List ℕ)} {new : List (Option ℕ)} (h : InvI M zones new M1) : InvI M zones (new ++ [none]) M1 := by
  have hmem : ∀ m, some m ∈ new ++ [none] ↔ some m ∈ new := by simp
  refine ⟨h.conf, h.ccw, h.distinct, h.dom, h.pos, h.keep, fun m hm => h.newMem m ((hmem m).1 hm), fun v hv => ?_, fun e he => ?_, h.gone⟩
  · rw [hmem]
    exact h.sub v hv
  · obtain ⟨k, c, h1, h2, h3, h4, h5⟩ := h.nest e he
    refine ⟨k, c, h1, h2, h3, fun i m hi hme => ?_, ?_⟩
    · rcases getElem?_snoc hi with hi | ⟨-, hi⟩
      · exact h4 i m hi hme
      · cases hi
    · simpa only [hmem] using h5

theorem vertices_insertAt_iff {M : TMesh} {F : Finset ℕ} {m : ℕ} {x : ℝ × ℝ} (hinj : ∀ c ∈ M.cells, Function.Injective c) (hF : 2 ≤ F.card)
    (hc : ∃ c ∈ M.cells, F ⊆ verts c) (v : ℕ) : v ∈ vertices (insertAt M F m x) ↔ v ∈ vertices M ∨ v = m := by
  constructor
  · rintro ⟨c', hc', i, rfl⟩
    obtain ⟨c, hc, ⟨-, rfl⟩ | ⟨-, j, -, rfl⟩⟩ := mem_insertAt.1 hc'
    · exact Or.inl ⟨c', hc, i, rfl⟩
    · by_cases h : i = j
      · subst h
        exact Or.inr (by simp)
      · rw [Function.update_of_ne h]
        exact Or.inl ⟨c, hc, i, rfl⟩
  · rintro (h | rfl)
    · exact vertices_insertAt hinj hF h
    · obtain ⟨c, hc, hFc⟩ := hc
      obtain ⟨a, ha⟩ : F.Nonempty := Finset.card_pos.1 (by omega)
      obtain ⟨i, hi⟩ := mem_verts.1 (hFc ha)
      exact ⟨Function.update c i v, mem_insertAt.2 ⟨c, hc, Or.inr ⟨hFc, i, hi ▸ ha, rfl⟩⟩, i, by simp⟩

/-- An insertion keeps the invariant. -/
theorem InvI.insert {M M1 : TMesh} {zones : List (List ℕ)} {new : List (Option ℕ)} {outer : ℕ → Finset ℕ} (hM : Conforming ℝ M) (hMccw : Ccw M)
    (hMd : Distinct M.cells) (h : InvI M zones new M1) {r : Req (ℝ × ℝ)} {z : List ℕ} (hz : zones[new.length]? = some z) (hzone : ZoneOf M outer r z)
    (hold : ∀ a b, r.edge = some (a, b) → a ∈ vertices M ∧ b ∈ vertices M)
    {F : Finset ℕ} {m : ℕ} {x : ℝ × ℝ} {μ : ℕ → ℝ} (hin : Inside M1.pos F x μ) (hm : Fresh M1 m) (hmF : m ∉ F) (hF : 2 ≤ F.card)
    (hr : (∃ a b, r.edge = some (a, b) ∧ F = {a, b}) ∨ (r.edge = none ∧ x = r.point ∧ ∃ c ∈ M1.cells, F = verts c))
    (hFc : ∃ c ∈ M1.cells, F ⊆ verts c) : InvI M zones (new ++ [some m]) (insertAt M1 F m x) := by
  have hinj := h.conf.inj
  have hv := vertices_insertAt_iff (x := x) (m := m) hinj hF hFc
  have hmv : m ∉ vertices M1 := by
    rintro ⟨c, hc, i, hi⟩
    exact hm c hc i hi
  have hmM : m ∉ vertices M := fun h' => hmv (h.keep m h')
  have hmem : ∀ v, some v ∈ new ++ [some m] ↔ some v ∈ new ∨ v = m := by simp
  have hposeq : ∀ v ∈ vertices M1, (insertAt M1 F m x).pos v = M1.pos v := by
    intro v hv
    exact Function.update_of_ne (fun e : v = m => hmv (e ▸ hv)) _ _
  have hpos : ∀ v ∈ vertices M, (insertAt M1 F m x).pos v = M.pos v := fun v hv => (hposeq v (h.keep v hv)).trans (h.pos v hv)
  have hullkeep : ∀ c ∈ M1.cells, Refine.hull ℝ (insertAt M1 F m x) c = Refine.hull ℝ M1 c := by
    intro c hc
    unfold Refine.hull
    congr 1
    ext y
    simp only [Set.mem_range]
    refine exists_congr fun i => ?_
    rw [hposeq _ ⟨c, hc, i, rfl⟩]
  -- the old element around an element that is split belongs to the zone of the request
  have hzk : ∀ e ∈ M1.cells, F ⊆ verts e → ∀ (k : ℕ) (c : Fin 3 → ℕ), M.cells[k]? = some c → Refine.hull ℝ M1 e ⊆ Refine.hull ℝ M c →
      (∀ v ∈ verts e, v ∈ vertices M → v ∈ verts c) → k ∈ z := by
    intro e he hFe k c hk hsub hvs
    rcases hr with ⟨a, b, hab, rfl⟩ | ⟨hnone, rfl, c1, hc1, rfl⟩
    · simp only [ZoneOf, hab] at hzone
      obtain ⟨ha, hb⟩ := hold a b hab
      refine (hzone.1 k c hk).2 ⟨mem_verts.1 (hvs a (hFe (by simp)) ha), mem_verts.1 (hvs b (hFe (by simp)) hb)⟩
    · simp only [ZoneOf, hnone] at hzone
      obtain ⟨k', c', rfl, hk', hx⟩ := hzone
      have he' : verts e = verts c1 := (Finset.eq_of_subset_of_card_le hFe (by rw [card_verts (hinj e he), card_verts (hinj c1 hc1)])).symm
      rw [← he'] at hin
      have heq : verts c' = verts c := strict_eq hM hMccw (List.mem_of_getElem? hk') (List.mem_of_getElem? hk) (hinj e he) (h.ccw e he) hsub hin hx
      have : k = k' := by
        by_contra hne
        obtain ⟨l1, g1⟩ := List.getElem?_eq_some_iff.1 hk
        obtain ⟨l2, g2⟩ := List.getElem?_eq_some_iff.1 hk'
        rw [Distinct, List.pairwise_iff_getElem] at hMd
        rcases lt_or_gt_of_ne hne with hlt | hlt
        · exact hMd k k' l1 l2 hlt (by rw [g1, g2, heq])
        · exact hMd k' k l2 l1 hlt (by rw [g1, g2, heq])
      simp [this]
  have hnew : ∀ (i : ℕ) m', (new ++ [some m])[i]? = some (some m') → new[i]? = some (some m') ∨ (i = new.length ∧ m' = m) := by
    intro i m' hi
    rcases getElem?_snoc hi with hi | ⟨hi, hm'⟩
    · exact Or.inl hi
    · exact Or.inr ⟨hi, by simpa using hm'⟩
  refine ⟨conforming_insertAt hin hm hinj hmF h.conf, ccw_insertAt hin hm hinj h.ccw, distinct_insertAt hm hinj h.distinct,
    (domain_insertAt hin hm hinj).trans h.dom, hpos, fun v hv' => (hv v).2 (Or.inl (h.keep v hv')), ?_, ?_, ?_, ?_⟩
  · intro m' hm'
    rcases (hmem m').1 hm' with h' | rfl
    · exact ⟨(hv m').2 (Or.inl (h.newMem m' h').1), (h.newMem m' h').2⟩
    · exact ⟨(hv m').2 (Or.inr rfl), hmM⟩
  · intro v hv'
    rw [hmem]
    rcases (hv v).1 hv' with h' | rfl
    · rcases h.sub v h' with h' | h'
      · exact Or.inl h'
      · exact Or.inr (Or.inl h')
    · exact Or.inr (Or.inr rfl)
  · intro e' he'
    obtain ⟨e, he, hcase⟩ := mem_insertAt.1 he'
    obtain ⟨k, c, h1, h2, h3, h4, h5⟩ := h.nest e he
    rcases hcase with ⟨-, rfl⟩ | ⟨hFe, i, hi, rfl⟩
    · refine ⟨k, c, h1, (hullkeep e' he).symm ▸ h2, h3, ?_, ?_⟩
      · intro i m' hi hm'
        rcases hnew i m' hi with hi | ⟨-, rfl⟩
        · exact h4 i m' hi hm'
        · obtain ⟨j, hj⟩ := mem_verts.1 hm'
          exact absurd hj (hm e' he j)
      · rcases h5 with h5 | ⟨m', h5, h6⟩
        · exact Or.inl h5
        · exact Or.inr ⟨m', (hmem m').2 (Or.inl h5), h6⟩
    · have hvu := verts_update (hinj e he) (m := m) i
      refine ⟨k, c, h1, ?_, ?_, ?_, Or.inr ⟨m, (hmem m).2 (Or.inr rfl), by rw [hvu]; simp⟩⟩
      · intro y hy
        obtain ⟨w, hw, rfl⟩ := (hull_iff _ _ _).1 hy
        obtain ⟨f, g⟩ := fold_weight hin hm hinj he (Or.inr ⟨hFe, i, hi, rfl⟩) hw
        exact h2 ((hull_iff _ _ _).2 ⟨_, f, g⟩)
      · intro v hv1 hv2
        rw [hvu, Finset.mem_insert, Finset.mem_erase] at hv1
        rcases hv1 with rfl | hv1
        · exact absurd hv2 hmM
        · exact h3 v hv1.2 hv2
      · intro j m' hj hm'
        rcases hnew j m' hj with hj' | ⟨rfl, rfl⟩
        · refine h4 j m' hj' ?_
          rw [hvu, Finset.mem_insert, Finset.mem_erase] at hm'
          rcases hm' with rfl | hm'
          · exact absurd (h.newMem m' (List.mem_of_getElem? hj')).1 hmv
          · exact hm'.2
        · exact ⟨z, hz, hzk e he hFe k c h1 h2 h3⟩
  · intro o ho
    rcases h.gone o ho with h' | ⟨m', h1, h2, h3⟩
    · by_cases hFo : F ⊆ verts o
      · refine Or.inr ⟨m, (hv m).2 (Or.inr rfl), hmM, ?_⟩
        have hpm : (insertAt M1 F m x).pos m = x := Function.update_self _ _ _
        rw [hpm]
        have hx : x ∈ Refine.hull ℝ M1 o := by
          refine (hull_iff _ _ _).2 ⟨μ, ⟨hin.nonneg, fun v hv => hin.off v fun h => hv (hFo h), ?_⟩, ?_⟩
          · rw [← hin.sum]
            exact (Finset.sum_subset hFo fun v _ hv => hin.off v hv).symm
          · rw [← hin.point]
            exact (Finset.sum_subset hFo fun v _ hv => by rw [hin.off v hv, zero_smul]).symm
        have : Refine.hull ℝ M1 o = Refine.hull ℝ M o := by
          unfold Refine.hull
          congr 1
          ext y
          simp only [Set.mem_range]
          refine exists_congr fun i => ?_
          rw [h.pos _ ⟨o, ho, i, rfl⟩]
        rwa [← this]
      · exact Or.inl (mem_insertAt.2 ⟨o, h', Or.inl ⟨hFo, rfl⟩⟩)
    · exact Or.inr ⟨m', (hv m').2 (Or.inl h1), h2, by rw [hposeq m' h1]; exact h3⟩

/-- The whole insertion loop. -/
theorem inserts_inv {M : TMesh} {zones : List (List ℕ)} {outer : ℕ → Finset ℕ} (hM : Conforming ℝ M) (hMccw : Ccw M) (hMd : Distinct M.cells)
    {M1 M' : TMesh} {rs : List (Req (ℝ × ℝ))} {new : List (Option ℕ)} (hrun : Inserts M1 rs new M') :
    ∀ new0 : List (Option ℕ), InvI M zones new0 M1 → (∀ (i : ℕ) r, rs[i]? = some r → ∃ z, zones[new0.length + i]? = some z ∧ ZoneOf M outer r z) →
      (∀ r ∈ rs, ∀ e, r.edge = some e → OnEdge ℝ M r) →
      (∀ pre r post newa Ma, rs = pre ++ r :: post → Inserts M1 pre newa Ma → r.edge = none → InElement ℝ Ma r.point) →
      InvI M zones (new0 ++ new) M' ∧ new.length = rs.length := by
  induction hrun with
  | nil => intro new0 h _ _ _; exact ⟨by simpa using h, rfl⟩
  | @dropped M1 M' r rs new hs hrun ih =>
    intro new0 h hz he hc
    obtain ⟨h1, h2⟩ := ih (new0 ++ [none]) h.dropped (fun i r' hi => by
        obtain ⟨z, hz1, hz2⟩ := hz (i + 1) r' (by simpa using hi)
        exact ⟨z, by simpa [add_assoc, add_comm 1] using hz1, hz2⟩) (fun r' hr' => he r' (by simp [hr']))
      (fun pre r' post newa Ma hl hrun' => hc (r :: pre) r' post (none :: newa) Ma (by rw [hl]; rfl) (.dropped hs hrun'))
    exact ⟨by simpa using h1, by simp [h2]⟩
  | @cons M1 M2 M' r rs m new hs hm1 hm2 hrun ih =>
    intro new0 h hz he hc
    obtain ⟨z, hz1, hz2⟩ := hz 0 r rfl
    have hon := he r (by simp)
    have hedge : ∀ e, r.edge = some e → ∃ t : ℝ, 0 < t ∧ t < 1 ∧ r.point = t • M1.pos e.1 + (1 - t) • M1.pos e.2 := by
      rintro ⟨a, b⟩ hab
      obtain ⟨c, hc, i, j, -, t, h0, h1, hrt⟩ := hon (a, b) hab
      refine ⟨t, h0, h1, ?_⟩
      rw [hrt] at hab
      simp only [refineEdge, Option.some.injEq, Prod.mk.injEq] at hab
      obtain ⟨rfl, rfl⟩ := hab
      rw [hrt]
      simp only [refineEdge]
      rw [h.pos _ ⟨c, hc, i, rfl⟩, h.pos _ ⟨c, hc, j, rfl⟩]
    obtain ⟨h1, h2⟩ := ih (new0 ++ [some m]) (by
      rcases step_detail hs h.conf.inj hedge (hc [] r rs [] M1 rfl .nil) with rfl | ⟨F, m', x, μ, rfl, hin, hfr, hmF, hF, hr, hFc⟩
      · obtain ⟨c, hc, i, hi⟩ := hm2
        exact absurd hi (hm1 c hc i)
      · have : m = m' := by
          rcases (vertices_insertAt_iff h.conf.inj hF hFc m).1 hm2 with h' | h'
          · obtain ⟨c, hc, i, hi⟩ := h'
            exact absurd hi (hm1 c hc i)
          · exact h'
        subst this
        refine h.insert hM hMccw hMd (by simpa using hz1) hz2 ?_ hin hfr hmF hF hr hFc
        intro a b hab
        obtain ⟨c, hc, i, j, -, t, -, -, hrt⟩ := hon (a, b) hab
        rw [hrt] at hab
        simp only [refineEdge, Option.some.injEq, Prod.mk.injEq] at hab
        exact ⟨⟨c, hc, i, hab.1⟩, ⟨c, hc, j, hab.2⟩⟩) (fun i r' hi => by
        obtain ⟨z, hz1, hz2⟩ := hz (i + 1) r' (by simpa using hi)
        exact ⟨z, by simpa [add_assoc, add_comm 1] using hz1, hz2⟩) (fun r' hr' => he r' (by simp [hr']))
      (fun pre r' post newa Ma hl hrun' => hc (r :: pre) r' post (some m :: newa) Ma (by rw [hl]; rfl) (.cons hs hm1 hm2 hrun'))
    exact ⟨by simpa using h1, by simp [h2]⟩

end Verif.Conserve
