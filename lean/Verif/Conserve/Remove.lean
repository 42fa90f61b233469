import Verif.Conserve.Insert

/-!
# What the removal loop keeps
-/

namespace Verif.Conserve

open Refine Clip MeasureTheory Components

theorem Linked.symm {zones : List (List ℕ)} {i j : ℕ} (h : Linked zones i j) : Linked zones j i := by
  induction h with
  | refl => exact .refl
  | tail _ hab ih =>
    obtain ⟨za, zb, h1, h2, c, h3, h4⟩ := hab
    exact (Relation.ReflTransGen.single ⟨zb, za, h2, h1, c, h4, h3⟩).trans ih

theorem linked_common {zones : List (List ℕ)} {i j k : ℕ} {zi zj : List ℕ} (hi : zones[i]? = some zi) (hj : zones[j]? = some zj) (h1 : k ∈ zi) (h2 : k ∈ zj) :
    Linked zones i j := .single ⟨zi, zj, hi, hj, k, h1, h2⟩

/-- The requests linked with request `κ` account for the element `e` of a later mesh with vertex positions `P`: the old elements that overlap with `e`, and the
requests for the new vertices of `e` and for the removed vertices among the vertices of `e`. -/
structure Good (M : TMesh) (P : ℕ → ℝ × ℝ) (zones : List (List ℕ)) (new : List (Option ℕ)) (vs : List ℕ) (e : Fin 3 → ℕ) (κ : ℕ) : Prop where
  overlap : ∀ (k : ℕ) (o : Fin 3 → ℕ), M.cells[k]? = some o → leb (Refine.hull ℝ M o ∩ Refine.hull ℝ ⟨[], P⟩ e) ≠ 0 →
    ∃ j z, zones[j]? = some z ∧ k ∈ z ∧ Linked zones κ j
  ins : ∀ (i m : ℕ), new[i]? = some (some m) → m ∈ verts e → Linked zones κ i
  rem : ∀ (i v : ℕ), vs[i]? = some v → v ∈ verts e → Linked zones κ (new.length + i)

theorem Good.linked {M : TMesh} {P : ℕ → ℝ × ℝ} {zones : List (List ℕ)} {new : List (Option ℕ)} {vs : List ℕ} {e : Fin 3 → ℕ} {κ κ' : ℕ}
    (h : Good M P zones new vs e κ) (hl : Linked zones κ' κ) : Good M P zones new vs e κ' := by
  refine ⟨fun k o h1 h2 => ?_, fun i m h1 h2 => hl.trans (h.ins i m h1 h2), fun i v h1 h2 => hl.trans (h.rem i v h1 h2)⟩
  obtain ⟨j, z, h3, h4, h5⟩ := h.overlap k o h1 h2
  exact ⟨j, z, h3, h4, hl.trans h5⟩

theorem Good.congr {M : TMesh} {P : ℕ → ℝ × ℝ} {zones : List (List ℕ)} {new : List (Option ℕ)} {vs : List ℕ} {e e' : Fin 3 → ℕ} {κ : ℕ}
    (h : Good M P zones new vs e κ) (he : verts e' = verts e) : Good M P zones new vs e' κ := by
  refine ⟨fun k o h1 h2 => h.overlap k o h1 ?_, fun i m h1 h2 => h.ins i m h1 (he ▸ h2), fun i v h1 h2 => h.rem i v h1 (he ▸ h2)⟩
  rwa [hull_congr he] at h2

/-- What holds during the removal loop after the removals that made the elements `news`. -/
structure InvR (M : TMesh) (zones : List (List ℕ)) (new : List (Option ℕ)) (vs : List ℕ) (news : List (List (Fin 3 → ℕ))) (M1 : TMesh) : Prop where
  conf : Conforming ℝ M1
  ccw : Ccw M1
  distinct : Distinct M1.cells
  dom : domain ℝ M1 = domain ℝ M
  pos : ∀ v ∈ vertices M, M1.pos v = M.pos v
  newMem : ∀ m, some m ∈ new → m ∈ vertices M1 ∧ m ∉ vertices M
  sub : ∀ v ∈ vertices M1, v ∈ vertices M ∨ some v ∈ new
  gone : ∀ o ∈ M.cells, o ∈ M1.cells ∨ (∃ m ∈ vertices M1, m ∉ vertices M ∧ M1.pos m ∈ Refine.hull ℝ M o) ∨ ∃ u ∈ verts o, u ∉ vertices M1
  good : ∀ e ∈ M1.cells, e ∈ M.cells ∨ ∃ κ, Good M M1.pos zones new vs e κ
  flags : ∀ e ∈ M1.cells, e ∈ M.cells ∨ (∃ N ∈ news, e ∈ N) ∨ ∃ m, some m ∈ new ∧ m ∈ verts e
  made : ∀ (i : ℕ) N, news[i]? = some N → ∀ n ∈ N, Good M M1.pos zones new vs n (new.length + i) ∧ ∀ o ∈ M.cells, verts n ≠ verts o

theorem hull_pos {M : TMesh} (c : Fin 3 → ℕ) : Refine.hull ℝ ⟨[], M.pos⟩ c = Refine.hull ℝ M c := rfl

theorem hull_old {M M1 : TMesh} (h : ∀ v ∈ vertices M, M1.pos v = M.pos v) {o : Fin 3 → ℕ} (ho : o ∈ M.cells) :
    Refine.hull ℝ M1 o = Refine.hull ℝ M o := by
  unfold Refine.hull
  congr 1
  ext y
  simp only [Set.mem_range]
  refine exists_congr fun i => ?_
  rw [h _ ⟨o, ho, i, rfl⟩]

theorem index_unique {M : TMesh} (hMd : Distinct M.cells) {k k' : ℕ} {c c' : Fin 3 → ℕ} (hk : M.cells[k]? = some c) (hk' : M.cells[k']? = some c')
    (heq : verts c = verts c') : k = k' := by
  by_contra hne
  obtain ⟨l1, g1⟩ := List.getElem?_eq_some_iff.1 hk
  obtain ⟨l2, g2⟩ := List.getElem?_eq_some_iff.1 hk'
  rw [Distinct, List.pairwise_iff_getElem] at hMd
  rcases lt_or_gt_of_ne hne with hlt | hlt
  · exact hMd k k' l1 l2 hlt (by rw [g1, g2, heq])
  · exact hMd k' k l2 l1 hlt (by rw [g1, g2, heq])

/-- The zones of the removals. -/
def RemoveZones (M : TMesh) (vs : List ℕ) (off : ℕ) (zones : List (List ℕ)) : Prop :=
  ∀ (i : ℕ) v, vs[i]? = some v → ∃ z, zones[off + i]? = some z ∧ ZoneAt M v z

/-- The invariant after the insertions. -/
theorem InvI.toR {M M1 : TMesh} {zones : List (List ℕ)} {new : List (Option ℕ)} {vs : List ℕ} (hM : Conforming ℝ M) (hMccw : Ccw M)
    (hMd : Distinct M.cells) (hz : RemoveZones M vs new.length zones) (hvs : ∀ v ∈ vs, v ∈ vertices M) (h : InvI M zones new M1) :
    InvR M zones new vs [] M1 := by
  refine ⟨h.conf, h.ccw, h.distinct, h.dom, h.pos, h.newMem, h.sub, fun o ho => ?_, fun e he => ?_, fun e he => ?_, by simp⟩
  · rcases h.gone o ho with h' | h'
    · exact Or.inl h'
    · exact Or.inr (Or.inl h')
  · obtain ⟨k, c, h1, h2, h3, h4, rfl | ⟨m, h5, h6⟩⟩ := h.nest e he
    · exact Or.inl (List.mem_of_getElem? h1)
    · obtain ⟨i, hi⟩ := List.mem_iff_getElem?.1 h5
      obtain ⟨z, hz1, hz2⟩ := h4 i m hi h6
      refine Or.inr ⟨i, ?_, ?_, ?_⟩
      · intro k' o hk' ho
        have := index_unique hMd hk' h1 (overlap_eq hM hMccw (List.mem_of_getElem? hk') (List.mem_of_getElem? h1) h2 ho)
        exact ⟨i, z, hz1, this ▸ hz2, .refl⟩
      · intro j m' hj hm'
        obtain ⟨z', hz1', hz2'⟩ := h4 j m' hj hm'
        exact linked_common hz1 hz1' hz2 hz2'
      · intro j v hj hv
        obtain ⟨z', hz1', hz2', -⟩ := hz j v hj
        exact linked_common hz1 hz1' hz2 ((hz2' k c h1).2 (mem_verts.1 (h3 v hv (hvs v (List.mem_of_getElem? hj)))))
  · obtain ⟨k, c, h1, -, -, -, rfl | h5⟩ := h.nest e he
    · exact Or.inl (List.mem_of_getElem? h1)
    · exact Or.inr (Or.inr h5)

theorem InvR.kept {M M1 : TMesh} {zones : List (List ℕ)} {new : List (Option ℕ)} {vs : List ℕ} {news : List (List (Fin 3 → ℕ))}
    (h : InvR M zones new vs news M1) : InvR M zones new vs (news ++ [[]]) M1 := by
  refine ⟨h.conf, h.ccw, h.distinct, h.dom, h.pos, h.newMem, h.sub, h.gone, h.good, fun e he => ?_, fun i N hi n hn => ?_⟩
  · rcases h.flags e he with h' | ⟨N, h1, h2⟩ | h'
    · exact Or.inl h'
    · exact Or.inr (Or.inl ⟨N, by simp [h1], h2⟩)
    · exact Or.inr (Or.inr h')
  · rcases getElem?_snoc hi with hi | ⟨-, rfl⟩
    · exact h.made i N hi n hn
    · simp at hn

/-- A removal keeps the invariant. -/
theorem InvR.remove {M M1 : TMesh} {zones : List (List ℕ)} {new : List (Option ℕ)} {vs : List ℕ} {news : List (List (Fin 3 → ℕ))} (hM : Conforming ℝ M)
    (hMccw : Ccw M) (hMd : Distinct M.cells) (hz : RemoveZones M vs new.length zones) (hvs : ∀ v ∈ vs, v ∈ vertices M)
    (h : InvR M zones new vs news M1) {v : ℕ} {N : List (Fin 3 → ℕ)} (hv : vs[news.length]? = some v) (hN : Fills ℝ M1 v N) (hin : Inner M1 v)
    (hNc : ∀ n ∈ N, 0 < side (M1.pos (n 0)) (M1.pos (n 1)) (M1.pos (n 2))) (hNd : Distinct N) : InvR M zones new vs (news ++ [N]) (removeAt M1 v N) := by
  have hvM := hvs v (List.mem_of_getElem? hv)
  obtain ⟨z, hz1, hz2, -⟩ := hz _ v hv
  -- the elements at the vertex
  have hstar : ∀ f ∈ M1.cells, v ∈ verts f → (∃ k, M.cells[k]? = some f ∧ k ∈ z) ∨ Good M M1.pos zones new vs f (new.length + news.length) := by
    intro f hf hvf
    rcases h.good f hf with h' | ⟨κ, h'⟩
    · obtain ⟨k, hk⟩ := List.mem_iff_getElem?.1 h'
      exact Or.inl ⟨k, hk, (hz2 k f hk).2 (mem_verts.1 hvf)⟩
    · exact Or.inr (h'.linked (Linked.symm (h'.rem _ v hv hvf)))
  have hlink : ∀ n ∈ N, ∀ u ∈ verts n, ∃ f ∈ M1.cells, v ∈ verts f ∧ u ∈ verts f := by
    intro n hn u hu
    obtain ⟨i, rfl⟩ := mem_verts.1 hu
    obtain ⟨-, f, hf, h1, h2⟩ := hN.link n hn i
    exact ⟨f, hf, mem_verts.2 h1, mem_verts.2 h2⟩
  have hnew : ∀ m, some m ∈ new → m ∉ vertices M := fun m hm => (h.newMem m hm).2
  have hgood : ∀ n ∈ N, Good M M1.pos zones new vs n (new.length + news.length) := by
    intro n hn
    refine ⟨?_, ?_, ?_⟩
    · intro k o hk ho
      obtain ⟨f, hf, hvf, hof⟩ := overlap_star hN hin hn ho
      rcases hstar f hf hvf with ⟨k', hk', hkz⟩ | hg
      · have hfM := List.mem_of_getElem? hk'
        rw [hull_old h.pos hfM] at hof
        have := index_unique hMd hk hk' (overlap_eq hM hMccw (List.mem_of_getElem? hk) hfM subset_rfl hof)
        exact ⟨_, z, hz1, this ▸ hkz, .refl⟩
      · exact hg.overlap k o hk hof
    · intro i m hi hm
      obtain ⟨f, hf, hvf, hmf⟩ := hlink n hn m hm
      rcases hstar f hf hvf with ⟨k', hk', -⟩ | hg
      · obtain ⟨j, hj⟩ := mem_verts.1 hmf
        exact absurd ⟨f, List.mem_of_getElem? hk', j, hj⟩ (hnew m (List.mem_of_getElem? hi))
      · exact hg.ins i m hi hmf
    · intro i u hi hu
      obtain ⟨f, hf, hvf, huf⟩ := hlink n hn u hu
      rcases hstar f hf hvf with ⟨k', hk', hkz⟩ | hg
      · obtain ⟨z', hz1', hz2', -⟩ := hz i u hi
        exact linked_common hz1 hz1' hkz ((hz2' k' f hk').2 (mem_verts.1 huf))
      · exact hg.rem i u hi huf
  have hconf := conforming_removeAt h.conf hN hin
  have hsub : ∀ u ∈ vertices (removeAt M1 v N), u ∈ vertices M1 := by
    rintro u ⟨c, hc, i, rfl⟩
    rcases mem_removeAt.1 hc with ⟨hc, -⟩ | hc
    · exact ⟨c, hc, i, rfl⟩
    · obtain ⟨-, c', hc', -, j, hj⟩ := hN.link c hc i
      exact ⟨c', hc', j, hj⟩
  have hstay : ∀ m, m ∈ vertices M1 → m ∉ vertices M → m ∈ vertices (removeAt M1 v N) := fun m h1 h2 =>
    vertices_removeAt hN hin h1 fun e => h2 (e ▸ hvM)
  -- the new elements are not old elements
  have hnotold : ∀ n ∈ N, ∀ o ∈ M.cells, verts n ≠ verts o := by
    intro n hn o ho heq
    rcases h.gone o ho with h' | ⟨m, h1, h2, h3⟩ | ⟨u, hu1, hu2⟩
    · exact filled_ne_kept h.conf hN hin hn h' heq
    · obtain ⟨c, hc, i, rfl⟩ := hstay m h1 h2
      rw [← hull_old h.pos ho] at h3
      have h3' : M1.pos (c i) ∈ Refine.hull ℝ M1 n := by rw [hull_congr heq]; exact h3
      obtain ⟨w, hw, hwx⟩ := (hull_iff _ _ _).1 h3'
      have hci : c i ∈ verts c := mem_verts.2 ⟨i, rfl⟩
      have hwc : IsWeight (verts c) (fun u => if u = c i then (1 : ℝ) else 0) := by
        refine ⟨fun u => by split_ifs <;> norm_num, fun u hu => if_neg fun e : u = c i => hu (e ▸ hci), ?_⟩
        rw [Finset.sum_ite_eq' (verts c) (c i)]
        simp [hci]
      have e := hconf.unique n (mem_removeAt.2 (Or.inr hn)) c hc w _ hw hwc (by
        change ∑ v ∈ verts n, w v • M1.pos v = ∑ u ∈ verts c, (if u = c i then (1 : ℝ) else 0) • M1.pos u
        rw [hwx]
        simp only [ite_smul, one_smul, zero_smul]
        rw [Finset.sum_ite_eq' (verts c) (c i)]
        simp [hci])
      have hn' : c i ∉ verts n := by
        intro hmem
        rw [heq] at hmem
        obtain ⟨j, hj⟩ := mem_verts.1 hmem
        exact h2 ⟨o, ho, j, hj⟩
      have := hw.off _ hn'
      rw [e] at this
      simp at this
    · rw [← heq] at hu1
      obtain ⟨f, hf, -, huf⟩ := hlink n hn u hu1
      obtain ⟨j, hj⟩ := mem_verts.1 huf
      exact hu2 ⟨f, hf, j, hj⟩
  refine ⟨hconf, ccw_removeAt h.ccw hNc, distinct_removeAt h.conf hN hin h.distinct hNd, (domain_removeAt hN hin).trans h.dom, h.pos, ?_, ?_, ?_, ?_, ?_, ?_⟩
  · intro m hm
    obtain ⟨h1, h2⟩ := h.newMem m hm
    exact ⟨hstay m h1 h2, h2⟩
  · intro u hu
    exact h.sub u (hsub u hu)
  · intro o ho
    rcases h.gone o ho with h' | ⟨m, h1, h2, h3⟩ | ⟨u, hu1, hu2⟩
    · by_cases hvo : v ∈ verts o
      · exact Or.inr (Or.inr ⟨v, hvo, gone_removeAt hN⟩)
      · exact Or.inl (mem_removeAt.2 (Or.inl ⟨h', hvo⟩))
    · exact Or.inr (Or.inl ⟨m, hstay m h1 h2, h2, h3⟩)
    · exact Or.inr (Or.inr ⟨u, hu1, fun h' => hu2 (hsub u h')⟩)
  · intro e he
    rcases mem_removeAt.1 he with ⟨he, -⟩ | he
    · exact h.good e he
    · exact Or.inr ⟨_, hgood e he⟩
  · intro e he
    rcases mem_removeAt.1 he with ⟨he, -⟩ | he
    · rcases h.flags e he with h' | ⟨N, h1, h2⟩ | h'
      · exact Or.inl h'
      · exact Or.inr (Or.inl ⟨N, by simp [h1], h2⟩)
      · exact Or.inr (Or.inr h')
    · exact Or.inr (Or.inl ⟨N, by simp, he⟩)
  · intro i N' hi n hn
    rcases getElem?_snoc hi with hi | ⟨rfl, rfl⟩
    · exact h.made i N' hi n hn
    · exact ⟨hgood n hn, hnotold n hn⟩

/-- The whole removal loop. -/
theorem removes_inv {M : TMesh} {zones : List (List ℕ)} {new : List (Option ℕ)} {vsAll : List ℕ} (hM : Conforming ℝ M) (hMccw : Ccw M) (hMd : Distinct M.cells)
    (hz : RemoveZones M vsAll new.length zones) (hvs : ∀ v ∈ vsAll, v ∈ vertices M) {M1 M' : TMesh} {vs : List ℕ} {news : List (List (Fin 3 → ℕ))}
    (hrun : Removes M1 vs news M') : ∀ news0 : List (List (Fin 3 → ℕ)), InvR M zones new vsAll news0 M1 →
      (∀ (i : ℕ) v, vs[i]? = some v → vsAll[news0.length + i]? = some v) →
      (∀ pre v post newsa Ma, vs = pre ++ v :: post → Removes M1 pre newsa Ma → Inner Ma v) →
      InvR M zones new vsAll (news0 ++ news) M' ∧ news.length = vs.length ∧ M'.pos = M1.pos := by
  induction hrun with
  | nil => intro news0 h _ _; exact ⟨by simpa using h, rfl, rfl⟩
  | @kept M1 M' v vs news hrun ih =>
    intro news0 h hidx hin
    obtain ⟨h1, h2, h3⟩ := ih (news0 ++ [[]]) h.kept (fun i u hi => by
        have := hidx (i + 1) u (by simpa using hi)
        simpa [add_assoc, add_comm 1] using this)
      (fun pre u post newsa Ma hl hrun' => hin (v :: pre) u post ([] :: newsa) Ma (by rw [hl]; rfl) (.kept hrun'))
    exact ⟨by simpa using h1, by simp [h2], h3⟩
  | @cons M1 M' v vs N news hN hNc hNd hrun ih =>
    intro news0 h hidx hin
    obtain ⟨h1, h2, h3⟩ := ih (news0 ++ [N]) (h.remove hM hMccw hMd hz hvs (by simpa using hidx 0 v rfl) hN (hin [] v vs [] M1 rfl .nil) hNc hNd)
      (fun i u hi => by
        have := hidx (i + 1) u (by simpa using hi)
        simpa [add_assoc, add_comm 1] using this)
      (fun pre u post newsa Ma hl hrun' => hin (v :: pre) u post (N :: newsa) Ma (by rw [hl]; rfl) (.cons hN hNc hNd hrun'))
    exact ⟨by simpa using h1, by simp [h2], h3⟩

end Verif.Conserve
