import Verif.InterfaceIndexSet.Props

/-!
# C21: intersections of interface elements
-/

namespace Verif.InterfaceIndexSet

open Verif RefElem IndexSet

/-! ### Specification -/

/-- Facet number `i` of an element with corners sorted by id omits corner number `d - 1 - i` (numbering of the
reference line and the reference triangle). -/
def facetSpec (d : Nat) (e : List Nat) (i : Nat) : List Nat := (sortIds e).eraseIdx (d - 1 - i)

/-- `f` is another interface element containing facet `i` of `e`. -/
def Neighbour (d : Nat) (els : List (List Nat)) (e : List Nat) (i : Nat) (f : List Nat) : Prop :=
  f ∈ els ∧ f ≠ e ∧ facetSpec d e i ⊆ f

/-! ### the walk through the local index map -/

theorem walk_succ (me : Nat) : ∀ (rest : List (Nat × Nat)) (n : Nat) (a : Nat × Nat),
    walk me (n + 1) (a :: rest) = (rest.filter fun e => decide (e.1 ≠ me))[n]?
  | [], n, a => by simp [walk]
  | e :: r, n, a => by
    rw [walk]
    by_cases h : e.1 = me
    · rw [if_pos h, walk_succ me r n e, List.filter_cons_of_neg (by simp [h])]
    · rw [if_neg h, List.filter_cons_of_pos (by simp [h])]
      cases n with
      | zero => simp [walk]
      | succ m => rw [walk_succ me r m e]; simp

theorem pick_eq (me nb : Nat) (entries : List (Nat × Nat)) :
    pick me nb entries = (entries.filter fun e => decide (e.1 ≠ me))[nb]? := by
  unfold pick
  induction entries with
  | nil => simp [walk]
  | cons a l ih =>
    rw [List.dropWhile_cons]
    by_cases h : a.1 = me
    · rw [if_pos (by simp [h]), ih, List.filter_cons_of_neg (by simp [h])]
    · rw [if_neg (by simp [h]), List.filter_cons_of_pos (by simp [h])]
      cases nb with
      | zero => simp [walk]
      | succ n => rw [walk_succ]; simp

/-! ### facets -/

/-- The facet as the code looks it up. -/
structure FacetAt (d : Nat) (e : List Nat) (i : Nat) (F : List Nat) (last : Nat) : Prop where
  ids : facetIds d e i = some F
  opp : (sortIds e)[d - 1 - i]? = some last
  perm : e.Perm (last :: F)
  spec : F = facetSpec d e i
  v0 : ∃ v0 ∈ F, (sortIds e)[if d = 3 ∧ i = 1 then 0 else i]? = some v0 ∧ (d = 2 → F = [v0]) ∧
    (d = 3 → ∃ v1, (sortIds e)[if i = 1 then 2 else 1]? = some v1 ∧ [v0, v1].Perm F)

theorem facetAt {d : Nat} (hd : d = 2 ∨ d = 3) {e : List Nat} (hl : e.length = d) {i : Nat} (hi : i < d) :
    ∃ F last, FacetAt d e i F last := by
  have hlen := (sortIds_perm e).length_eq
  have hp := (sortIds_perm e).symm
  rw [hl] at hlen
  rcases hd with rfl | rfl
  · match hs : sortIds e, hlen with
    | [a, b], _ =>
      rw [hs] at hp
      match i, hi with
      | 0, _ => exact ⟨[a], b, ⟨by simp [facetIds, hs], by simp [hs], hp.trans (List.Perm.swap ..),
          by simp [facetSpec, hs], a, by simp, by simp [hs], by simp, by simp⟩⟩
      | 1, _ => exact ⟨[b], a, ⟨by simp [facetIds, hs], by simp [hs], hp, by simp [facetSpec, hs],
          b, by simp, by simp [hs], by simp, by simp⟩⟩
  · match hs : sortIds e, hlen with
    | [a, b, c], _ =>
      rw [hs] at hp
      match i, hi with
      | 0, _ =>
        refine ⟨[a, b], c, ⟨by simp [facetIds, hs], by simp [hs], hp.trans ?_, by simp [facetSpec, hs],
          a, by simp, by simp [hs], by simp, fun _ => ⟨b, by simp [hs], List.Perm.refl _⟩⟩⟩
        exact ((List.Perm.swap c b []).cons a).trans (List.Perm.swap c a [b])
      | 1, _ =>
        exact ⟨[a, c], b, ⟨by simp [facetIds, hs], by simp [hs], hp.trans (List.Perm.swap ..), by simp [facetSpec, hs],
          a, by simp, by simp [hs], by simp, fun _ => ⟨c, by simp [hs], List.Perm.refl _⟩⟩⟩
      | 2, _ =>
        exact ⟨[b, c], a, ⟨by simp [facetIds, hs], by simp [hs], hp, by simp [facetSpec, hs],
          c, by simp, by simp [hs], by simp, fun _ => ⟨b, by simp [hs], List.Perm.swap ..⟩⟩⟩

theorem exists_perm_cons {F f : List Nat} (hF : F.Nodup) (hsub : F ⊆ f) (hlen : f.length = F.length + 1) :
    ∃ y, f.Perm (y :: F) := by
  obtain ⟨l, hl, hs⟩ := hF.subperm hsub
  obtain ⟨m, hm⟩ := hs.exists_perm_append
  have h1 : f.Perm (F ++ m) := hm.trans (List.Perm.append_right m hl)
  have h2 := h1.length_eq
  rw [List.length_append, hlen] at h2
  match m, h2 with
  | [y], _ => exact ⟨y, h1.trans (List.perm_append_singleton _ _)⟩
  | [], h2 => simp at h2
  | _ :: _ :: _, h2 => simp at h2

/-- The entries of the local index map are the elements containing the facet. -/
theorem localIndexMap_spec {d : Nat} (hd : d = 2 ∨ d = 3) {els : List (List Nat)} (hE : Elements d els) {s : State}
    (h : Inv d els s) {e : List Nat} (he : e ∈ els) {i : Nat} {F : List Nat} {last : Nat} (hF : FacetAt d e i F last) :
    ∃ l, localIndexMap d s e i = some l ∧ (l.map Prod.fst).Nodup ∧
      ∀ x c, (x, c) ∈ l ↔ ∃ f y, els[c]? = some f ∧ f.Perm (y :: F) ∧ Map.find s.vert y = some x := by
  have hnd : (last :: F).Nodup := hF.perm.nodup_iff.1 (hE.nodup e he)
  have hFnd := (List.nodup_cons.1 hnd).2
  have hFe : ∀ v ∈ F, v ∈ e := fun v hv => hF.perm.mem_iff.2 (List.mem_cons_of_mem _ hv)
  obtain ⟨ix, hix⟩ := Ixs.exists h.vert (e := F) (fun v hv => ⟨e, he, hFe v hv⟩)
  have hixnd := hix.nodup h.vert hFnd
  have hkey : ∀ x c, flat s.index (sortIds ix) x = some c ↔
      ∃ f y, els[c]? = some f ∧ f.Perm (y :: F) ∧ Map.find s.vert y = some x := by
    intro x c
    rw [h.index]
    constructor
    · rintro ⟨f, jx, hf, hj, -, hp⟩
      have hfm := List.mem_of_getElem? hf
      have hp' : (x :: ix).Perm jx := ((sortIds_perm ix).cons x).symm.trans hp
      obtain ⟨y, hy, hyx⟩ := hj.mem_right (hp'.subset (List.mem_cons_self ..))
      have hyF : (y :: F).Nodup := by
        rw [List.nodup_cons]
        refine ⟨fun hm => ?_, hFnd⟩
        obtain ⟨j, hjm, hjf⟩ := hix.mem_left hm
        rw [hyx] at hjf; cases hjf
        have := hp'.nodup_iff.2 (hj.nodup h.vert (hE.nodup f hfm))
        exact (List.nodup_cons.1 this).1 hjm
      exact ⟨f, y, hf, ((Ixs.perm h.vert (.cons hyx hix) hj hyF (hE.nodup f hfm)).1 hp').symm, hyx⟩
    · rintro ⟨f, y, hf, hp, hyx⟩
      have hfm := List.mem_of_getElem? hf
      obtain ⟨jx, hj⟩ := Ixs.exists h.vert (e := f) (fun v hv => ⟨f, hfm, hv⟩)
      refine ⟨f, jx, hf, hj, sortIds_strict hixnd, ((sortIds_perm ix).cons x).trans ?_⟩
      exact (Ixs.perm h.vert (.cons hyx hix) hj (hp.nodup_iff.1 (hE.nodup f hfm)) (hE.nodup f hfm)).2 hp.symm
  obtain ⟨ce, hce⟩ := List.mem_iff_getElem?.1 he
  obtain ⟨xe, hxe⟩ := (h.vert.dom last).2 ⟨e, he, hF.perm.mem_iff.2 (List.mem_cons_self ..)⟩
  have hown := (hkey xe ce).2 ⟨e, last, hce, hF.perm, hxe⟩
  unfold flat at hown
  cases hl : Map.find s.index (sortIds ix) with
  | none => rw [hl] at hown; cases hown
  | some l =>
    have hin := (h.inner _ _ hl).1
    refine ⟨l, ?_, hin, ?_⟩
    · unfold localIndexMap
      rw [hF.ids]
      simp only [Option.bind_eq_bind, Option.bind_some]
      rw [(mapM_iff _ _ _).2 hix]
      exact hl
    · intro x c
      rw [Map.mem_iff_find hin, ← hkey]
      unfold flat
      rw [hl]
      rfl

/-- The other entries are the neighbours. -/
theorem neighbour_entries {d : Nat} {els : List (List Nat)} (hE : Elements d els) {s : State}
    (h : Inv d els s) {e : List Nat} (he : e ∈ els) {i : Nat} {F : List Nat} {last me : Nat} (hF : FacetAt d e i F last)
    (hme : Map.find s.vert last = some me) {l : List (Nat × Nat)}
    (hl : ∀ x c, (x, c) ∈ l ↔ ∃ f y, els[c]? = some f ∧ f.Perm (y :: F) ∧ Map.find s.vert y = some x) (x c : Nat) :
    (x, c) ∈ l.filter (fun e => decide (e.1 ≠ me)) ↔
      ∃ f y, els[c]? = some f ∧ Neighbour d els e i f ∧ f.Perm (y :: F) ∧ Map.find s.vert y = some x := by
  rw [List.mem_filter, hl]
  simp only [decide_eq_true_eq]
  constructor
  · rintro ⟨⟨f, y, hf, hp, hyx⟩, hne⟩
    refine ⟨f, y, hf, ⟨List.mem_of_getElem? hf, ?_, ?_⟩, hp, hyx⟩
    · rintro rfl
      have h2 : (y :: F).Perm (last :: F) := hp.symm.trans hF.perm
      have h3 : y ∈ last :: F := h2.subset (List.mem_cons_self ..)
      have hnd : (y :: F).Nodup := hp.nodup_iff.1 (hE.nodup _ he)
      rcases List.mem_cons.1 h3 with rfl | h3
      · rw [hyx] at hme
        exact hne (Option.some.inj hme)
      · exact (List.nodup_cons.1 hnd).1 h3
    · rw [← hF.spec]
      exact fun v hv => hp.mem_iff.2 (List.mem_cons_of_mem _ hv)
  · rintro ⟨f, y, hf, ⟨hfm, hfe, -⟩, hp, hyx⟩
    refine ⟨⟨f, y, hf, hp, hyx⟩, ?_⟩
    rintro rfl
    have : y = last := h.vert.inj _ _ _ hyx hme
    subst this
    have hpe : f.Perm e := hp.trans hF.perm.symm
    obtain ⟨a, ha⟩ := List.mem_iff_getElem?.1 hfm
    obtain ⟨b, hb⟩ := List.mem_iff_getElem?.1 he
    obtain ⟨la, ea⟩ := List.getElem?_eq_some_iff.1 ha
    obtain ⟨lb, eb⟩ := List.getElem?_eq_some_iff.1 hb
    have hab : a ≠ b := by
      rintro rfl
      rw [ea] at eb
      exact hfe eb
    rcases Nat.lt_or_gt_of_ne hab with hlt | hgt
    · exact List.pairwise_iff_getElem.1 hE.distinct a b la lb hlt (by rw [ea, eb]; exact hpe)
    · exact List.pairwise_iff_getElem.1 hE.distinct b a lb la hgt (by rw [ea, eb]; exact hpe.symm)

/-- The search finds a facet with the given vertices. -/
theorem search_spec {S : Nat → Prop} {n : Nat} {s : State} (hV : VI S s.vert n) {f ix vIdx : List Nat} (hf : f.Nodup)
    (hix : Ixs s.vert f ix) (hv : vIdx = sortIds ix) {incident : List (List Nat)} (hin : ∃ f' ∈ incident, f'.Perm f) :
    ∃ o ∈ incident, search s vIdx incident = some o ∧ o.Perm f := by
  have hq : ∀ g : List Nat, (match g.mapM (Map.find s.vert) with
      | some l => decide (sortIds l = vIdx)
      | none => false) = true ↔ g.Perm f := by
    intro g
    cases hg : g.mapM (Map.find s.vert) with
    | none =>
      simp only [Bool.false_eq_true, false_iff]
      intro hp
      have : ∀ v ∈ g, S v := by
        intro v hv
        obtain ⟨i, -, hi⟩ := hix.mem_left (hp.subset hv)
        exact (hV.dom v).1 ⟨i, hi⟩
      obtain ⟨jx, hj⟩ := Ixs.exists hV this
      rw [(mapM_iff _ _ _).2 hj] at hg
      cases hg
    | some jx =>
      have hj : Ixs s.vert g jx := (mapM_iff _ _ _).1 hg
      simp only [decide_eq_true_eq]
      rw [hv, Segments.sort_eq_iff]
      constructor
      · intro hp
        have hgn : g.Nodup := by
          have hjn := hp.nodup_iff.2 (hix.nodup hV hf)
          clear hp hg
          induction hj with
          | nil => exact List.nodup_nil
          | cons hb ht ih =>
            rw [List.nodup_cons] at hjn ⊢
            refine ⟨fun hm => ?_, ih hjn.2⟩
            obtain ⟨j, hjm, hjf⟩ := Ixs.mem_left ht hm
            rw [hb] at hjf; cases hjf
            exact hjn.1 hjm
        exact (hj.perm hV hix hgn hf).1 hp
      · intro hp
        exact (hj.perm hV hix (hp.nodup_iff.2 hf) hf).2 hp
  obtain ⟨f', hf', hp'⟩ := hin
  have : (search s vIdx incident).isSome := by
    unfold search
    rw [List.find?_isSome]
    exact ⟨f', hf', (hq f').2 hp'⟩
  obtain ⟨o, ho⟩ := Option.isSome_iff_exists.1 this
  refine ⟨o, List.mem_of_find?_eq_some ho, ho, ?_⟩
  unfold search at ho
  have := List.find?_some ho
  exact (hq o).1 this

/-- What `outside` returns for each neighbour number. -/
theorem outside_spec {d : Nat} (hd : d = 2 ∨ d = 3) {els : List (List Nat)} (hE : Elements d els) {s : State}
    (h : Inv d els s) (order : List (Nat × Nat) → List (Nat × Nat)) (ho : ∀ l, (order l).Perm l)
    (incident : Nat → List (List Nat)) (hinc : ∀ f ∈ els, ∀ v ∈ f, ∃ f' ∈ incident v, f'.Perm f)
    {e : List Nat} (he : e ∈ els) {i : Nat} (hi : i < d) :
    ∃ l N : List (Nat × Nat), localIndexMap d s e i = some l ∧ l.length = N.length + 1 ∧ N.Nodup ∧
      (∀ x c, (x, c) ∈ N → ∃ f, els[c]? = some f ∧ Neighbour d els e i f) ∧
      (∀ f, Neighbour d els e i f → ∃ x c, (x, c) ∈ N ∧ els[c]? = some f) ∧
      (∀ nb x c, N[nb]? = some (x, c) → ∃ o f, outside d s order incident e i nb = some o ∧ els[c]? = some f ∧ o.Perm f) ∧
      (∀ x c x' c', (x, c) ∈ N → (x', c') ∈ N → c = c' → x = x') := by
  obtain ⟨F, last, hF⟩ := facetAt hd (hE.length e he) hi
  obtain ⟨l, hl, hnd, hent⟩ := localIndexMap_spec hd hE h he hF
  obtain ⟨me, hme⟩ := (h.vert.dom last).2 ⟨e, he, hF.perm.mem_iff.2 (List.mem_cons_self ..)⟩
  obtain ⟨ce, hce⟩ := List.mem_iff_getElem?.1 he
  have hlnd : l.Nodup := List.Nodup.of_map _ hnd
  have hnbr := neighbour_entries hE h he hF hme hent
  have hperm := (ho l).filter (fun e => decide (e.1 ≠ me))
  have hFnd : F.Nodup := (List.nodup_cons.1 (hF.perm.nodup_iff.1 (hE.nodup e he))).2
  have hFlen : F.length + 1 = d := by
    have := hF.perm.length_eq
    rw [hE.length e he] at this
    simpa using this.symm
  refine ⟨l, (order l).filter (fun e => decide (e.1 ≠ me)), hl, ?_, ?_, ?_, ?_, ?_, ?_⟩
  · rw [hperm.length_eq]
    have hown : (me, ce) ∈ l := (hent me ce).2 ⟨e, last, hce, hF.perm, hme⟩
    have hcount : (l.filter fun e => decide (e.1 = me)).length = 1 := by
      have : (l.filter fun e => decide (e.1 = me)).Perm [(me, ce)] := by
        rw [List.perm_ext_iff_of_nodup (hlnd.filter _) (by simp)]
        rintro ⟨x, c⟩
        rw [List.mem_filter]
        simp only [decide_eq_true_eq, List.mem_singleton]
        constructor
        · rintro ⟨h1, h2⟩
          have := List.inj_on_of_nodup_map hnd h1 hown h2
          exact this
        · intro he
          obtain ⟨rfl, rfl⟩ := Prod.mk.inj he
          exact ⟨hown, rfl⟩
      rw [this.length_eq]; rfl
    have := List.length_eq_length_filter_add (l := l) (fun e : Nat × Nat => decide (e.1 = me))
    rw [hcount] at this
    rw [this, Nat.add_comm]
    congr 2
    apply List.filter_congr
    intro x _
    simp
  · exact ((ho l).nodup_iff.2 hlnd).filter _
  · intro x c hm
    obtain ⟨f, y, hf, hn, -⟩ := (hnbr x c).1 (hperm.mem_iff.1 hm)
    exact ⟨f, hf, hn⟩
  · intro f hn
    obtain ⟨c, hc⟩ := List.mem_iff_getElem?.1 hn.1
    have hsub := hn.2.2
    rw [← hF.spec] at hsub
    obtain ⟨y, hy⟩ := exists_perm_cons hFnd hsub (by rw [hE.length f hn.1]; omega)
    obtain ⟨x, hx⟩ := (h.vert.dom y).2 ⟨f, hn.1, hy.mem_iff.2 (List.mem_cons_self ..)⟩
    exact ⟨x, c, hperm.mem_iff.2 ((hnbr x c).2 ⟨f, y, hc, hn, hy, hx⟩), hc⟩
  · intro nb x c hnb
    obtain ⟨f, y, hf, hn, hp, hyx⟩ := (hnbr x c).1 (hperm.mem_iff.1 (List.mem_of_getElem? hnb))
    have hfnd := hE.nodup f hn.1
    obtain ⟨v0, hv0F, hv0, h2, h3⟩ := hF.v0
    have hv0f : v0 ∈ f := hp.mem_iff.2 (List.mem_cons_of_mem _ hv0F)
    obtain ⟨i0, hi0⟩ := (h.vert.dom v0).2 ⟨f, hn.1, hv0f⟩
    have hpick : pick me nb (order l) = some (x, c) := by rw [pick_eq]; exact hnb
    rcases hd with rfl | rfl
    · have hF1 := h2 rfl
      rw [hF1] at hp
      have hvp : [v0, y].Perm f := (List.Perm.swap ..).trans hp.symm
      have hix : Ixs s.vert [v0, y] [i0, x] := .cons hi0 (.cons hyx .nil)
      obtain ⟨o, -, hso, hof⟩ := search_spec h.vert (f := [v0, y]) (hvp.nodup_iff.2 hfnd) hix rfl (incident := incident v0)
        (by obtain ⟨f', a, b⟩ := hinc f hn.1 v0 hv0f; exact ⟨f', a, b.trans hvp.symm⟩)
      refine ⟨o, f, ?_, hf, hof.trans hvp⟩
      unfold outside
      rw [hl]
      simp only [Option.bind_eq_bind, Option.bind_some, hF.opp, hme, hpick, hv0, hi0, if_true]
      exact hso
    · obtain ⟨v1, hv1, hv01⟩ := h3 rfl
      have hv1F : v1 ∈ F := hv01.subset (by simp)
      have hv1f : v1 ∈ f := hp.mem_iff.2 (List.mem_cons_of_mem _ hv1F)
      obtain ⟨i1, hi1⟩ := (h.vert.dom v1).2 ⟨f, hn.1, hv1f⟩
      have hvp : [v0, y, v1].Perm f := (List.Perm.swap ..).trans ((hv01.cons y).trans hp.symm)
      have hix : Ixs s.vert [v0, y, v1] [i0, x, i1] := .cons hi0 (.cons hyx (.cons hi1 .nil))
      obtain ⟨o, -, hso, hof⟩ := search_spec h.vert (f := [v0, y, v1]) (hvp.nodup_iff.2 hfnd) hix rfl
        (incident := incident v0)
        (by obtain ⟨f', a, b⟩ := hinc f hn.1 v0 hv0f; exact ⟨f', a, b.trans hvp.symm⟩)
      refine ⟨o, f, ?_, hf, hof.trans hvp⟩
      unfold outside
      rw [hl]
      simp only [true_and] at hv0
      simp only [Option.bind_eq_bind, Option.bind_some, hF.opp, hme, hpick, true_and, hv0, hi0, hv1, hi1]
      exact hso
  · intro x c x' c' hm hm' hcc
    subst hcc
    obtain ⟨f, y, hf, -, hp, hyx⟩ := (hnbr x c).1 (hperm.mem_iff.1 hm)
    obtain ⟨f', y', hf', -, hp', hyx'⟩ := (hnbr x' c).1 (hperm.mem_iff.1 hm')
    rw [hf] at hf'; cases hf'
    have h1 : y ∈ y' :: F := (hp.symm.trans hp').subset (List.mem_cons_self ..)
    have hnd' : (y :: F).Nodup := hp.nodup_iff.1 (hE.nodup f (List.mem_of_getElem? hf))
    rcases List.mem_cons.1 h1 with rfl | h1
    · rw [hyx] at hyx'; exact Option.some.inj hyx'
    · exact absurd h1 (List.nodup_cons.1 hnd').1

/-! ### the loop over the intersections -/

theorem Loop.unique {maxNb : Nat → Int} {stop p : Nat × Nat} {l l' : List (Nat × Nat)} (h : Loop maxNb stop p l)
    (h' : Loop maxNb stop p l') : l = l' := by
  induction h generalizing l' with
  | done =>
    cases h' with
    | done => rfl
    | step _ _ hne _ => exact absurd rfl hne
  | step p l hne _ ih =>
    cases h' with
    | done => exact absurd rfl hne
    | step _ _ _ hl => rw [ih hl]

/-- The last neighbour number of facet `i`. -/
def top (maxNb : Nat → Int) (i : Nat) : Nat := (maxNb i).toNat

theorem loop_facet {maxNb : Nat → Int} {d i : Nat} (hi : i < d) (h0 : -1 ≤ maxNb i) {l : List (Nat × Nat)}
    (hl : Loop maxNb (d, 0) (i + 1, 0) l) : ∀ k nb, nb + k = top maxNb i →
    Loop maxNb (d, 0) (i, nb) ((List.range' nb (k + 1)).map (fun m => (i, m)) ++ l) := by
  have hne : ∀ nb : Nat, ((i, nb) : Nat × Nat) ≠ (d, 0) := by
    intro nb he
    have := (Prod.mk.inj he).1
    omega
  intro k
  induction k with
  | zero =>
    intro nb hnb
    have hstep : next maxNb (i, nb) = (i + 1, 0) := by
      unfold next toSize
      rw [if_neg]
      simp only [not_and, not_lt]
      intro hm
      unfold top at hnb
      rw [if_neg (by omega)]
      omega
    simpa [List.range'] using Loop.step (i, nb) l (hne nb) (by rw [hstep]; exact hl)
  | succ k ih =>
    intro nb hnb
    have hstep : next maxNb (i, nb) = (i, nb + 1) := by
      unfold next toSize
      rw [if_pos]
      unfold top at hnb
      simp only
      constructor
      · omega
      · rw [if_neg (by omega)]; omega
    have := Loop.step (i, nb) _ (hne nb) (by rw [hstep]; exact ih (nb + 1) (by omega))
    rw [List.range'_succ, List.map_cons, List.cons_append]
    exact this

theorem loop_from {maxNb : Nat → Int} {d : Nat} (h0 : ∀ i < d, -1 ≤ maxNb i) : ∀ k i, i + k = d →
    Loop maxNb (d, 0) (i, 0) ((List.range' i k).flatMap fun i => (List.range' 0 (top maxNb i + 1)).map fun m => (i, m)) := by
  intro k
  induction k with
  | zero =>
    intro i hi
    simp only [Nat.add_zero] at hi
    subst hi
    exact Loop.done
  | succ k ih =>
    intro i hi
    rw [List.range'_succ, List.flatMap_cons]
    exact loop_facet (by omega) (h0 i (by omega)) (ih (i + 1) (by omega)) _ 0 (by omega)

/-- The positions visited by the loop. -/
theorem loop_mem {maxNb : Nat → Int} {d : Nat} (h0 : ∀ i < d, -1 ≤ maxNb i) :
    ∃ l, Loop maxNb (d, 0) (0, 0) l ∧ l.Nodup ∧ ∀ p, p ∈ l ↔ p.1 < d ∧ p.2 ≤ top maxNb p.1 := by
  refine ⟨_, loop_from h0 d 0 (by omega), ?_, ?_⟩
  · rw [List.nodup_flatMap]
    refine ⟨fun i _ => List.Nodup.map (fun a b hab => (Prod.mk.inj hab).2) List.nodup_range', ?_⟩
    refine List.Pairwise.imp ?_ (List.nodup_range' (n := d) (s := 0) (step := 1))
    intro a b hab
    rw [Function.onFun, List.disjoint_left]
    intro x hx hy
    obtain ⟨i, -, rfl⟩ := List.mem_map.1 hx
    obtain ⟨j, -, h⟩ := List.mem_map.1 hy
    exact hab (Prod.mk.inj h).1.symm
  · rintro ⟨i, nb⟩
    rw [List.mem_flatMap]
    constructor
    · rintro ⟨j, hj, hm⟩
      obtain ⟨m, hm', he⟩ := List.mem_map.1 hm
      obtain ⟨rfl, rfl⟩ := Prod.mk.inj he
      rw [List.mem_range'_1] at hj hm'
      simp only
      omega
    · rintro ⟨h1, h2⟩
      simp only at h1 h2
      refine ⟨i, ?_, List.mem_map.2 ⟨nb, ?_, rfl⟩⟩
      · rw [List.mem_range'_1]; omega
      · rw [List.mem_range'_1]; omega

/-! ## C21 -/

/-- The intersection is on the boundary of the interface. -/
def onBoundary (d : Nat) (s : State) (e : List Nat) (i : Nat) : Prop :=
  ∃ l, localIndexMap d s e i = some l ∧ boundary l = true

/-- **C21** Iterating over the intersections of an interface element ends. For every facet and every other interface
element containing it exactly one intersection is visited whose outside is that element; for a facet contained in no
other element exactly one intersection is visited, and this one is on the boundary; nothing else is visited. `order` is
the iteration order of the hash map, `incident` enumerates the facets at a vertex. -/
theorem C21_neighbours {d : Nat} (hd : d = 2 ∨ d = 3) {els : List (List Nat)} (hE : Elements d els) {s : State}
    (hs : update d els = some s) (order : List (Nat × Nat) → List (Nat × Nat)) (ho : ∀ l, (order l).Perm l)
    (incident : Nat → List (List Nat)) (hinc : ∀ f ∈ els, ∀ v ∈ f, ∃ f' ∈ incident v, f'.Perm f)
    (ghost : List Nat → Bool) {e : List Nat} (he : e ∈ els) (hg : ghost e = false) :
    ∃ l, Intersections d s order incident ghost e l ∧ l.Nodup ∧ (∀ p ∈ l, p.1 < d) ∧
      (∀ i < d, ∀ f, Neighbour d els e i f →
        ∃! p, p ∈ l ∧ p.1 = i ∧ ∃ o, outside d s order incident e p.1 p.2 = some o ∧ o.Perm f) ∧
      (∀ p ∈ l, (∃ f, Neighbour d els e p.1 f) → ¬ onBoundary d s e p.1 ∧
        ∃ o f, outside d s order incident e p.1 p.2 = some o ∧ Neighbour d els e p.1 f ∧ o.Perm f) ∧
      (∀ i < d, (¬ ∃ f, Neighbour d els e i f) → onBoundary d s e i ∧ ∃! p, p ∈ l ∧ p.1 = i) := by
  obtain ⟨s', hs', h⟩ := update_inv hd els hE
  rw [hs] at hs'; cases hs'
  have hO := fun i (hi : i < d) => outside_spec hd hE h order ho incident hinc he hi
  have hmax : ∀ i < d, -1 ≤ maxNb d s e i := by
    intro i hi
    obtain ⟨l, N, hl, hlen, -⟩ := hO i hi
    unfold maxNb
    rw [hl]
    simp only
    omega
  obtain ⟨l, hloop, hnd, hmem⟩ := loop_mem hmax
  have hfil : Iterate.rangeFor (fun p : Nat × Nat => !(ghost e && (decide (maxNb d s e p.1 = -1) ||
      match outside d s order incident e p.1 p.2 with
      | some o => ghost o
      | none => true))) l = l := by
    rw [Iterate.rangeFor_eq_filter, List.filter_eq_self]
    intro p _
    rw [hg]
    rfl
  -- neighbours at different positions are different elements
  have hpos : ∀ i, i < d → ∃ N : List (Nat × Nat), top (maxNb d s e) i + 1 = max N.length 1 ∧
      (onBoundary d s e i ↔ N = []) ∧ N.Nodup ∧
      (∀ x c, (x, c) ∈ N → ∃ f, els[c]? = some f ∧ Neighbour d els e i f) ∧
      (∀ f, Neighbour d els e i f → ∃ x c, (x, c) ∈ N ∧ els[c]? = some f) ∧
      (∀ nb x c, N[nb]? = some (x, c) → ∃ o f, outside d s order incident e i nb = some o ∧ els[c]? = some f ∧ o.Perm f) ∧
      (∀ x c x' c', (x, c) ∈ N → (x', c') ∈ N → c = c' → x = x') := by
    intro i hi
    obtain ⟨l, N, hl, hlen, h1, h2, h3, h4, h5⟩ := hO i hi
    refine ⟨N, ?_, ?_, h1, h2, h3, h4, h5⟩
    · unfold top maxNb
      rw [hl]
      simp only
      omega
    · unfold onBoundary boundary
      constructor
      · rintro ⟨l', hl', hb⟩
        rw [hl] at hl'; cases hl'
        rw [hlen] at hb
        simpa using hb
      · rintro rfl
        exact ⟨l, hl, by rw [hlen]; rfl⟩
  have hidx : ∀ (a b : Nat) (f : List Nat), els[a]? = some f → (∃ g : List Nat, els[b]? = some g ∧ g.Perm f) → a = b := by
    rintro a b f ha ⟨g, hb, hp⟩
    obtain ⟨la, ea⟩ := List.getElem?_eq_some_iff.1 ha
    obtain ⟨lb, eb⟩ := List.getElem?_eq_some_iff.1 hb
    by_contra hab
    rcases Nat.lt_or_gt_of_ne hab with hlt | hgt
    · exact List.pairwise_iff_getElem.1 hE.distinct a b la lb hlt (by rw [ea, eb]; exact hp.symm)
    · exact List.pairwise_iff_getElem.1 hE.distinct b a lb la hgt (by rw [ea, eb]; exact hp)
  refine ⟨l, ⟨l, hloop, hfil.symm⟩, hnd, fun p hp => ((hmem p).1 hp).1, ?_, ?_, ?_⟩
  · intro i hi f hf
    obtain ⟨N, hlen, -, hNnd, hN1, hN2, hN3, hN4⟩ := hpos i hi
    obtain ⟨x, c, hm, hc⟩ := hN2 f hf
    obtain ⟨nb, hnb⟩ := List.mem_iff_getElem?.1 hm
    have hnblt := (List.getElem?_eq_some_iff.1 hnb).1
    obtain ⟨o, f', hout, hf', hof⟩ := hN3 nb x c hnb
    rw [hc] at hf'; cases hf'
    refine ⟨(i, nb), ⟨(hmem _).2 ⟨hi, ?_⟩, rfl, o, hout, hof⟩, ?_⟩
    · simp only; omega
    · rintro ⟨j, nb'⟩ ⟨hj, hji, o', hout', hof'⟩
      simp only at hji hout'
      subst hji
      have hle := ((hmem _).1 hj).2
      simp only at hle
      have hlt' : nb' < N.length := by omega
      obtain ⟨⟨x', c'⟩, hnb'⟩ : ∃ y, N[nb']? = some y := ⟨_, List.getElem?_eq_getElem hlt'⟩
      obtain ⟨o'', g, hout'', hg', hog⟩ := hN3 nb' x' c' hnb'
      rw [hout'] at hout''; cases hout''
      have hcc : c = c' := hidx c c' f hc ⟨g, hg', hog.symm.trans hof'⟩
      have hxx := hN4 x c x' c' (List.mem_of_getElem? hnb) (List.mem_of_getElem? hnb') hcc
      subst hcc; subst hxx
      have : nb = nb' := by
        have e1 := (List.getElem?_eq_some_iff.1 hnb).2
        have e2 := (List.getElem?_eq_some_iff.1 hnb').2
        exact (hNnd.getElem_inj_iff (hi := hnblt) (hj := hlt')).1 (e1.trans e2.symm)
      rw [this]
  · rintro ⟨i, nb⟩ hp ⟨f, hf⟩
    have hi := ((hmem _).1 hp).1
    have hle := ((hmem _).1 hp).2
    simp only at hi hle hf ⊢
    obtain ⟨N, hlen, hbd, hNnd, hN1, hN2, hN3, hN4⟩ := hpos i hi
    obtain ⟨x, c, hm, hc⟩ := hN2 f hf
    have hN0 : N ≠ [] := List.ne_nil_of_mem hm
    have hNpos : 0 < N.length := List.length_pos_iff.2 hN0
    refine ⟨fun hb => hN0 (hbd.1 hb), ?_⟩
    have hlt' : nb < N.length := by omega
    obtain ⟨⟨x', c'⟩, hnb'⟩ : ∃ y, N[nb]? = some y := ⟨_, List.getElem?_eq_getElem hlt'⟩
    obtain ⟨o, g, hout, hg', hog⟩ := hN3 nb x' c' hnb'
    obtain ⟨g', hg'', hn⟩ := hN1 x' c' (List.mem_of_getElem? hnb')
    rw [hg'] at hg''; cases hg''
    exact ⟨o, g, hout, hn, hog⟩
  · intro i hi hno
    obtain ⟨N, hlen, hbd, hNnd, hN1, hN2, hN3, hN4⟩ := hpos i hi
    have hN0 : N = [] := by
      cases hN : N with
      | nil => rfl
      | cons y N' =>
        obtain ⟨f, -, hf⟩ := hN1 y.1 y.2 (by rw [hN]; exact List.mem_cons_self ..)
        exact absurd ⟨f, hf⟩ hno
    refine ⟨hbd.2 hN0, (i, 0), ⟨(hmem _).2 ⟨hi, Nat.zero_le _⟩, rfl⟩, ?_⟩
    rintro ⟨j, nb⟩ ⟨hj, hji⟩
    simp only at hji
    subst hji
    have hle := ((hmem _).1 hj).2
    simp only at hle
    rw [hN0] at hlen
    simp only [List.length_nil] at hlen
    have : nb = 0 := by omega
    rw [this]

/-- **C21** The iteration visits the same intersections however often it is done: there is only one list. -/
theorem C21_unique {d : Nat} {s : State} {order : List (Nat × Nat) → List (Nat × Nat)} {incident : Nat → List (List Nat)}
    {ghost : List Nat → Bool} {e : List Nat} {l l' : List (Nat × Nat)} (h : Intersections d s order incident ghost e l)
    (h' : Intersections d s order incident ghost e l') : l = l' := by
  obtain ⟨m, hm, rfl⟩ := h
  obtain ⟨m', hm', rfl⟩ := h'
  rw [hm.unique hm']

/-- **C21** (parallel grids) For a ghost element exactly those neighbours are visited that are not ghosts themselves,
and no boundary intersections. -/
theorem C21_ghost {d : Nat} (hd : d = 2 ∨ d = 3) {els : List (List Nat)} (hE : Elements d els) {s : State}
    (hs : update d els = some s) (order : List (Nat × Nat) → List (Nat × Nat)) (ho : ∀ l, (order l).Perm l)
    (incident : Nat → List (List Nat)) (hinc : ∀ f ∈ els, ∀ v ∈ f, ∃ f' ∈ incident v, f'.Perm f)
    (ghost : List Nat → Bool) (hghost : ∀ f f', f.Perm f' → ghost f = ghost f') {e : List Nat} (he : e ∈ els)
    (hg : ghost e = true) :
    ∃ l, Intersections d s order incident ghost e l ∧ l.Nodup ∧
      (∀ i < d, ∀ f, Neighbour d els e i f → ghost f = false →
        ∃! p, p ∈ l ∧ p.1 = i ∧ ∃ o, outside d s order incident e p.1 p.2 = some o ∧ o.Perm f) ∧
      (∀ p ∈ l, p.1 < d ∧ ¬ onBoundary d s e p.1 ∧
        ∃ o f, outside d s order incident e p.1 p.2 = some o ∧ Neighbour d els e p.1 f ∧ o.Perm f ∧ ghost f = false) := by
  obtain ⟨l, ⟨l', hl', hl⟩, hnd, hlt, h1, h2, h3⟩ := C21_neighbours hd hE hs order ho incident hinc (fun _ => false) he rfl
  have hl0 : l = l' := by
    rw [hl, Iterate.rangeFor_eq_filter, List.filter_eq_self]
    intro p _
    rfl
  subst hl0
  clear hl
  have hmb : ∀ i < d, maxNb d s e i = -1 ↔ onBoundary d s e i := by
    intro i hi
    obtain ⟨s', hs', h⟩ := update_inv hd els hE
    rw [hs] at hs'; cases hs'
    obtain ⟨m, N, hm, hlen, -⟩ := outside_spec hd hE h order ho incident hinc he hi
    unfold maxNb onBoundary boundary
    rw [hm]
    simp only [Option.some.injEq, exists_eq_left', beq_iff_eq]
    omega
  refine ⟨_, ⟨l, hl', rfl⟩, ?_, ?_, ?_⟩
  · rw [Iterate.rangeFor_eq_filter]; exact hnd.filter _
  · intro i hi f hf hgf
    obtain ⟨p, ⟨hp, hpi, o, hout, hof⟩, huniq⟩ := h1 i hi f hf
    refine ⟨p, ⟨?_, hpi, o, hout, hof⟩, ?_⟩
    · rw [Iterate.rangeFor_eq_filter, List.mem_filter]
      refine ⟨hp, ?_⟩
      rw [hg, hout]
      have hb : maxNb d s e p.1 ≠ -1 := by
        rw [Ne, hmb p.1 (hlt p hp)]
        exact (h2 p hp ⟨f, by rw [hpi]; exact hf⟩).1
      simp only [hb, decide_false, Bool.false_or, Bool.true_and, Bool.not_eq_true']
      rw [hghost o f hof, hgf]
    · rintro q ⟨hq, hr⟩
      rw [Iterate.rangeFor_eq_filter, List.mem_filter] at hq
      exact huniq q ⟨hq.1, hr⟩
  · intro p hp
    rw [Iterate.rangeFor_eq_filter, List.mem_filter] at hp
    obtain ⟨hp, hk⟩ := hp
    rw [hg] at hk
    simp only [Bool.true_and, Bool.not_eq_true', Bool.or_eq_false_iff, decide_eq_false_iff_not] at hk
    have hnb : ¬ onBoundary d s e p.1 := by rw [← hmb p.1 (hlt p hp)]; exact hk.1
    have hex : ∃ f, Neighbour d els e p.1 f := by
      by_contra hno
      exact hnb (h3 p.1 (hlt p hp) hno).1
    obtain ⟨o, f, hout, hn, hof⟩ := (h2 p hp hex).2
    have hgo := hk.2
    rw [hout] at hgo
    exact ⟨hlt p hp, hnb, o, f, hout, hn, hof, by rw [← hghost o f hof]; exact hgo⟩

/-! A junction of three segments: the element (4 1) has two neighbours at vertex 4 and a boundary at vertex 1. -/

def exStarState : State := (update 2 exStar).getD {}

example : update 2 exStar = some exStarState := rfl

example : Loop (maxNb 2 exStarState [4, 1]) (2, 0) (0, 0) [(0, 0), (1, 0), (1, 1)] :=
  .step _ _ (by decide) (.step _ _ (by decide) (.step _ _ (by decide) .done))

example : (outside 2 exStarState id (fun _ => [[4, 7], [9, 4], [4, 1], [2, 4]]) [4, 1] 1 0,
    outside 2 exStarState id (fun _ => [[4, 7], [9, 4], [4, 1], [2, 4]]) [4, 1] 1 1) = (some [9, 4], some [2, 4]) := by
  decide

example : Neighbour 2 exStar [4, 1] 1 [9, 4] ∧ ¬ ∃ f, Neighbour 2 exStar [4, 1] 0 f := by
  constructor
  · exact ⟨by decide, by decide, by decide⟩
  · rintro ⟨f, h1, h2, h3⟩
    have : f = [4, 1] ∨ f = [9, 4] ∨ f = [4, 2] := by simpa [exStar] using h1
    rcases this with rfl | rfl | rfl
    · exact h2 rfl
    · revert h3; decide
    · revert h3; decide

end Verif.InterfaceIndexSet
