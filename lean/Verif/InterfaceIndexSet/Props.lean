import Verif.InterfaceIndexSet.Lemmas
import Verif.InterfaceIter.Props

/-!
# C22: leaf indices of the interface grid

`IsNumbering` (`Verif.IndexSet`): the numbers given are exactly `0, ..., n-1`, each given once.
-/

namespace Verif.InterfaceIndexSet

open Verif RefElem IndexSet

theorem sortIds_ne_nil {l : List Nat} (h : l ≠ []) : sortIds l ≠ [] := by
  intro h0
  have := (sortIds_perm l).length_eq
  rw [h0] at this
  exact h (List.length_eq_zero_iff.1 this.symm)

/-- Looking up an element finds the visited element with the same vertices. -/
theorem indexElement_iff {d : Nat} {els : List (List Nat)} (hd : 0 < d) (hE : Elements d els) {s : State} (h : Inv d els s)
    {e : List Nat} (hl : e.length = d) (hnd : e.Nodup) (hv : ∀ v ∈ e, ∃ f ∈ els, v ∈ f) (c : Nat) :
    indexElement s e = some c ↔ ∃ f, els[c]? = some f ∧ f.Perm e := by
  obtain ⟨ix, hix⟩ := Ixs.exists h.vert hv
  have hne : ix ≠ [] := by
    rintro rfl
    have := List.Forall₂.length_eq hix
    simp at this
    rw [this] at hl
    simp at hl
    omega
  have hsn := sortIds_ne_nil hne
  have hst := sortIds_strict (hix.nodup h.vert hnd)
  have key : indexElement s e = flat s.index (sortIds ix).dropLast ((sortIds ix).getLast hsn) := by
    unfold indexElement flat
    rw [(mapM_iff _ _ _).2 hix]
    simp only [Option.bind_eq_bind, Option.bind_some, List.getLast?_eq_some_getLast hsn]
  have hperm : ((sortIds ix).getLast hsn :: (sortIds ix).dropLast).Perm ix := by
    have h1 : (sortIds ix).dropLast ++ [(sortIds ix).getLast hsn] = sortIds ix := List.dropLast_append_getLast hsn
    have h2 := sortIds_perm ix
    rw [← h1] at h2
    exact (List.perm_append_singleton _ _).symm.trans h2
  have hp : (sortIds ix).dropLast.Pairwise (· < ·) := hst.sublist (List.dropLast_sublist _)
  rw [key, h.index]
  constructor
  · rintro ⟨f, jx, hf, hj, -, h2⟩
    exact ⟨f, hf, (hj.perm h.vert hix (hE.nodup f (List.mem_of_getElem? hf)) hnd).1 (h2.symm.trans hperm)⟩
  · rintro ⟨f, hf, hfe⟩
    have hfm := List.mem_of_getElem? hf
    obtain ⟨jx, hj⟩ := Ixs.exists h.vert (e := f) (fun v hv => ⟨f, hfm, hv⟩)
    exact ⟨f, jx, hf, hj, hp, hperm.trans ((hix.perm h.vert hj hnd (hE.nodup f hfm)).2 hfe.symm)⟩

/-- **C22** The update succeeds; the elements are numbered `0, ..., size(0)-1`, and the index of an element does not
depend on the order in which its vertices are stored. -/
theorem C22_elements {d : Nat} (hd : d = 2 ∨ d = 3) (els : List (List Nat)) (hE : Elements d els) :
    ∃ s, update d els = some s ∧ s.elementCount = els.length ∧
      IsNumbering (indexElement s) {e | e ∈ els} s.elementCount ∧
      ∀ e ∈ els, ∀ f, f.Perm e → indexElement s f = indexElement s e := by
  obtain ⟨s, hs, h⟩ := update_inv hd els hE
  have hd0 : 0 < d := by omega
  have hself : ∀ c e, els[c]? = some e → indexElement s e = some c := fun c e hc =>
    (indexElement_iff hd0 hE h (hE.length e (List.mem_of_getElem? hc)) (hE.nodup e (List.mem_of_getElem? hc))
      (fun v hv => ⟨e, List.mem_of_getElem? hc, hv⟩) c).2 ⟨e, hc, List.Perm.refl _⟩
  refine ⟨s, hs, h.count, ⟨?_, ?_, ?_⟩, ?_⟩
  · intro e he
    obtain ⟨c, hc⟩ := List.mem_iff_getElem?.1 (show e ∈ els from he)
    exact ⟨c, by rw [h.count]; exact (List.getElem?_eq_some_iff.1 hc).1, hself c e hc⟩
  · intro c hc
    rw [h.count] at hc
    have := List.getElem?_eq_getElem hc
    exact ⟨els[c], List.getElem_mem hc, hself c _ this⟩
  · intro e he e' he' heq
    obtain ⟨c, hc⟩ := List.mem_iff_getElem?.1 (show e ∈ els from he)
    obtain ⟨c', hc'⟩ := List.mem_iff_getElem?.1 (show e' ∈ els from he')
    rw [hself c e hc, hself c' e' hc'] at heq
    cases heq
    rw [hc] at hc'
    exact Option.some.inj hc'
  · intro e he f hf
    obtain ⟨c, hc⟩ := List.mem_iff_getElem?.1 (show e ∈ els from he)
    rw [hself c e hc]
    exact (indexElement_iff hd0 hE h (hf.length_eq.trans (hE.length e he)) (hf.nodup_iff.2 (hE.nodup e he))
      (fun v hv => ⟨e, he, hf.subset hv⟩) c).2 ⟨e, hc, hf.symm⟩

/-- **C22** The vertices of the interface elements are numbered `0, ..., size(dim)-1`; no other vertex has an index. -/
theorem C22_vertices {d : Nat} (hd : d = 2 ∨ d = 3) (els : List (List Nat)) (hE : Elements d els) {s : State}
    (hs : update d els = some s) :
    IsNumbering (indexVertex s) {v | ∃ e ∈ els, v ∈ e} s.vertexCount ∧
    ∀ v, (∀ e ∈ els, v ∉ e) → indexVertex s v = none := by
  obtain ⟨s', hs', h⟩ := update_inv hd els hE
  rw [hs] at hs'; cases hs'
  refine ⟨⟨?_, ?_, ?_⟩, ?_⟩
  · intro v hv
    obtain ⟨i, hi⟩ := (h.vert.dom v).2 hv
    exact ⟨i, h.vert.lt v i hi, hi⟩
  · intro i hi
    obtain ⟨v, hv⟩ := h.vert.onto i hi
    exact ⟨v, (h.vert.dom v).1 ⟨i, hv⟩, hv⟩
  · intro v hv w hw he
    obtain ⟨i, hi⟩ := (h.vert.dom v).2 hv
    unfold indexVertex at he
    rw [hi] at he
    exact h.vert.inj v w i hi he.symm
  · intro v hv
    unfold indexVertex
    cases hf : Map.find s.vert v with
    | none => rfl
    | some i =>
      obtain ⟨e, he, hve⟩ := (h.vert.dom v).1 ⟨i, hf⟩
      exact absurd hve (hv e he)

/-- **C22** (3D) The edges of the interface elements are numbered `0, ..., size(1)-1`, independently of the direction of
the edge. -/
theorem C22_edges (els : List (List Nat)) (hE : Elements 3 els) {s : State} (hs : update 3 els = some s) :
    IsNumbering (fun p : Nat × Nat => indexEdge s p.1 p.2) {p | p.1 < p.2 ∧ ∃ e ∈ els, p.1 ∈ e ∧ p.2 ∈ e} s.edgeCount ∧
    ∀ u v, indexEdge s u v = indexEdge s v u := by
  obtain ⟨s', hs', h⟩ := update_inv (Or.inr rfl) els hE
  rw [hs] at hs'; cases hs'
  have hI := h.edge rfl
  have hlook : ∀ u v e, u < v → e ∈ els → u ∈ e → v ∈ e → ∃ i j k, Map.find s.vert u = some i ∧
      Map.find s.vert v = some j ∧ i ≠ j ∧ Map.find s.edge (sortIds [i, j]) = some k := by
    intro u v e huv he hu hv
    obtain ⟨ix, hix⟩ := Ixs.exists h.vert (e := e) (fun v hv => ⟨e, he, hv⟩)
    obtain ⟨i, hi, hfi⟩ := hix.mem_left hu
    obtain ⟨j, hj, hfj⟩ := hix.mem_left hv
    have hij : i ≠ j := by
      rintro rfl
      have := h.vert.inj u v i hfi hfj
      omega
    obtain ⟨k, hk⟩ := (hI.dom (sortIds [i, j])).2 ⟨e, he, ix, hix, (sortIds_perm [i, j]).length_eq,
      sortIds_strict (by simpa using hij), fun x hx => by
        have := (sortIds_perm [i, j]).subset hx
        simp only [List.mem_cons, List.not_mem_nil, or_false] at this
        rcases this with rfl | rfl
        · exact hi
        · exact hj⟩
    exact ⟨i, j, k, hfi, hfj, hij, hk⟩
  refine ⟨⟨?_, ?_, ?_⟩, ?_⟩
  · rintro ⟨u, v⟩ ⟨huv, e, he, hu, hv⟩
    obtain ⟨i, j, k, h1, h2, -, h3⟩ := hlook u v e huv he hu hv
    exact ⟨k, hI.lt _ _ h3, by simp [indexEdge, h1, h2, h3]⟩
  · intro k hk
    obtain ⟨l, hl⟩ := hI.onto k hk
    obtain ⟨e, he, ix, hix, hlen, hsort, hsub⟩ := (hI.dom l).1 ⟨k, hl⟩
    match l, hlen with
    | [i, j], _ =>
      have hij : i < j := by simpa using hsort
      obtain ⟨u, hu, hui⟩ := hix.mem_right (hsub (show i ∈ [i, j] by simp))
      obtain ⟨v, hv, hvj⟩ := hix.mem_right (hsub (show j ∈ [i, j] by simp))
      have huv : u ≠ v := by
        rintro rfl
        rw [hui] at hvj; cases hvj; omega
      rcases Nat.lt_or_gt_of_ne huv with hlt | hgt
      · refine ⟨(u, v), ⟨hlt, e, he, hu, hv⟩, ?_⟩
        simp [indexEdge, hui, hvj, sortIds_of_strict hsort, hl]
      · refine ⟨(v, u), ⟨hgt, e, he, hv, hu⟩, ?_⟩
        have : sortIds [j, i] = [i, j] := by
          rw [← sortIds_of_strict hsort]
          exact (Segments.sort_eq_iff _ _).2 (List.Perm.swap ..)
        simp [indexEdge, hui, hvj, this, hl]
  · rintro ⟨u, v⟩ ⟨huv, e, he, hu, hv⟩ ⟨u', v'⟩ ⟨huv', e', he', hu', hv'⟩ heq
    obtain ⟨i, j, k, h1, h2, -, h3⟩ := hlook u v e huv he hu hv
    obtain ⟨i', j', k', h1', h2', -, h3'⟩ := hlook u' v' e' huv' he' hu' hv'
    simp only [indexEdge, h1, h2, h3, h1', h2', h3', Option.bind_eq_bind, Option.bind_some, Option.some.injEq] at heq
    subst heq
    have hk := (Segments.sort_eq_iff _ _).1 (hI.inj _ _ _ h3 h3')
    rcases Normals.perm2 hk with ⟨rfl, rfl⟩ | ⟨rfl, rfl⟩
    · exact Prod.ext (h.vert.inj _ _ _ h1 h1') (h.vert.inj _ _ _ h2 h2')
    · have a := h.vert.inj _ _ _ h1 h2'
      have b := h.vert.inj _ _ _ h2 h1'
      subst a; subst b; omega
  · intro u v
    unfold indexEdge
    cases Map.find s.vert u with
    | none => cases Map.find s.vert v <;> rfl
    | some i =>
      cases Map.find s.vert v with
      | none => rfl
      | some j =>
        simp only [Option.bind_eq_bind, Option.bind_some]
        rw [(Segments.sort_eq_iff [i, j] [j, i]).2 (List.Perm.swap ..)]

/-! A star of three segments meeting in vertex 4, and two triangles sharing an edge. -/

def exStar : List (List Nat) := [[4, 1], [9, 4], [4, 2]]

theorem exStar_elements : Elements 2 exStar := ⟨by decide, by decide, by decide⟩

def exSurf : List (List Nat) := [[5, 1, 3], [3, 8, 5], [8, 3, 2]]

theorem exSurf_elements : Elements 3 exSurf := ⟨by decide, by decide, by decide⟩

example : (update 2 exStar).map (fun s => (s.elementCount, s.vertexCount, indexElement s [4, 9], indexVertex s 2)) =
    some (3, 4, some 1, some 3) := by decide

example : (update 3 exSurf).map (fun s => (s.elementCount, s.vertexCount, s.edgeCount, indexElement s [5, 3, 8],
    indexEdge s 5 3)) = some (3, 5, 7, some 1, some 2) := by decide

end Verif.InterfaceIndexSet
