import Verif.Refine.Examples
import Verif.LongestEdge.Props

/-!
# Refinement is nested; `globalRefine`
-/

namespace Verif.Refine

open Finset

variable {K V : Type*} [Field K] [LinearOrder K] [IsStrictOrderedRing K] [AddCommGroup V] [Module K V] {d : ℕ}

/-! ## Specification -/

/-- The mesh `M'` is a refinement of `M`: every element of `M'` lies in an element of `M`, and every element of `M` is covered by the elements of `M'` that lie
in it. -/
structure Nested (K : Type*) [Field K] [LinearOrder K] [Module K V] (M M' : Mesh V d) : Prop where
  inside : ∀ c' ∈ M'.cells, ∃ c ∈ M.cells, convexHull K (Set.range fun i => M'.pos (c' i)) ⊆ convexHull K (Set.range fun i => M.pos (c i))
  covered : ∀ c ∈ M.cells, ∀ x ∈ convexHull K (Set.range fun i => M.pos (c i)), ∃ c' ∈ M'.cells,
    x ∈ convexHull K (Set.range fun i => M'.pos (c' i)) ∧
      convexHull K (Set.range fun i => M'.pos (c' i)) ⊆ convexHull K (Set.range fun i => M.pos (c i))

/-! ## Model -/

/-- The loop over the marked elements in `adapt()` (mmesh.hh:826-852) if every element is marked: the longest edge of the element is requested, unless it is an
interface edge (845) or was requested before (846). `ins` is the set `inserted_`; `edges` are the edges of the reference element in their order. If no edge is
longer than -1e100, the code takes edge number -1; here no request is made then. -/
def markedRequests (len : V → V → K) (edges : List (Fin (d + 1) × Fin (d + 1))) (isInterface : ℕ → ℕ → Bool) (M : Mesh V d) :
    List (Fin (d + 1) → ℕ) → List (Finset ℕ) → List (Req V)
  | [], _ => []
  | c :: cs, ins =>
    match LongestEdge.refinementEdge (fun i j => len (M.pos (c i)) (M.pos (c j))) edges with
    | none => markedRequests len edges isInterface M cs ins
    | some e =>
      if isInterface (c e.1) (c e.2) then markedRequests len edges isInterface M cs ins
      else if {c e.1, c e.2} ∈ ins then markedRequests len edges isInterface M cs ins
      else refineMarked K M (c e.1) (c e.2) :: markedRequests len edges isInterface M cs ({c e.1, c e.2} :: ins)

/-- mmesh.hh:709-719 `globalRefine(steps)`: every element is marked, then `preAdapt`, `adapt`, `postAdapt`. After `postAdapt` the queues are empty (C29), before the
first step this is assumed. No vertex is removed, and no interface edge is added, because no request is made for interface edges. -/
inductive GlobalRefine (len : V → V → K) (edges : List (Fin (d + 1) × Fin (d + 1))) (isInterface : ℕ → ℕ → Bool) : ℕ → Mesh V d → Mesh V d → Prop
  | zero {M} : GlobalRefine len edges isInterface 0 M M
  | step {n M M1 M2} : Run K M (markedRequests len edges isInterface M M.cells []) M1 → GlobalRefine len edges isInterface n M1 M2 →
      GlobalRefine len edges isInterface (n + 1) M M2

/-- A run of the insertion loop in which no request for an edge is dropped. -/
inductive Carried : Mesh V d → List (Req V) → Mesh V d → Prop
  | nil {M} : Carried M [] M
  | cons {M M' a b x m c rs} : c ∈ M.cells → a ≠ b → (∃ i, c i = a) → (∃ i, c i = b) → Fresh M m → Carried (insertAt M {a, b} m x) rs M' →
      Carried M (⟨some (a, b), x⟩ :: rs) M'

/-! ## Proofs -/

theorem Nested.refl (M : Mesh V d) : Nested K M M := ⟨fun c hc => ⟨c, hc, subset_rfl⟩, fun c hc _ hx => ⟨c, hc, hx, subset_rfl⟩⟩

theorem Nested.trans {M M1 M2 : Mesh V d} (h : Nested K M M1) (h' : Nested K M1 M2) : Nested K M M2 := by
  constructor
  · intro c2 hc2
    obtain ⟨c1, hc1, h1⟩ := h'.inside c2 hc2
    obtain ⟨c, hc, h2⟩ := h.inside c1 hc1
    exact ⟨c, hc, h1.trans h2⟩
  · intro c hc x hx
    obtain ⟨c1, hc1, hx1, h1⟩ := h.covered c hc x hx
    obtain ⟨c2, hc2, hx2, h2⟩ := h'.covered c1 hc1 x hx1
    exact ⟨c2, hc2, hx2, h2.trans h1⟩

theorem nested_insertAt {M : Mesh V d} {F : Finset ℕ} {m : ℕ} {x : V} {μ : ℕ → K} (hin : Inside M.pos F x μ) (hm : Fresh M m)
    (hinj : ∀ c ∈ M.cells, Function.Injective c) : Nested K M (insertAt M F m x) := by
  have sub : ∀ c ∈ M.cells, ∀ c' : Fin (d + 1) → ℕ, ((¬ F ⊆ verts c ∧ c' = c) ∨ (F ⊆ verts c ∧ ∃ i, c i ∈ F ∧ c' = Function.update c i m)) →
      convexHull K (Set.range fun i => (insertAt M F m x).pos (c' i)) ⊆ convexHull K (Set.range fun i => M.pos (c i)) := by
    intro c hc c' h y hy
    obtain ⟨w, hw, rfl⟩ := (hull_iff _ _ _).1 hy
    obtain ⟨f, g⟩ := fold_weight hin hm hinj hc h hw
    exact (hull_iff _ _ _).2 ⟨_, f, g⟩
  constructor
  · intro c' hc'
    obtain ⟨c, hc, h⟩ := mem_insertAt.1 hc'
    exact ⟨c, hc, sub c hc c' h⟩
  · intro c hc y hy
    obtain ⟨c', h, hy'⟩ := cover_insertAt hin hm hinj hc hy
    exact ⟨c', mem_insertAt.2 ⟨c, hc, h⟩, hy', sub c hc c' h⟩

/-- **C193** Refinement is nested: every new element lies in an old one, and every old element is covered by the new elements that lie in it. (The conditions on the
requests are those of C187.) -/
theorem C193_nested (hd : 0 < d) {M M' : Mesh V d} {rs : List (Req V)} (hM : Conforming K M) (hrun : Run K M rs M')
    (hedge : ∀ r ∈ rs, ∀ e, r.edge = some e → OnEdge K M r)
    (hcell : ∀ pre r post M1, rs = pre ++ r :: post → Run K M pre M1 → r.edge = none → InElement K M1 r.point) : Nested K M M' := by
  suffices H : ∀ (M0 M1 M' : Mesh V d) (rs : List (Req V)), Run K M1 rs M' → (∀ v ∈ vertices M0, v ∈ vertices M1 ∧ M1.pos v = M0.pos v) →
      (∀ r ∈ rs, ∀ e, r.edge = some e → OnEdge K M0 r) →
      (∀ pre r post M2, rs = pre ++ r :: post → Run K M1 pre M2 → r.edge = none → InElement K M2 r.point) → Conforming K M1 → Nested K M1 M' from
    H M M M' rs hrun (fun v hv => ⟨hv, rfl⟩) hedge hcell hM
  clear hrun hedge hcell hM rs M' M
  intro M0 M1 M' rs hrun
  induction hrun with
  | nil => exact fun _ _ _ _ => Nested.refl _
  | @cons M1 M2 M3 r rs hstep hrest ih =>
    intro hv hedge hcell hM
    have hsc := step_cases hd hstep hM.inj (by
      intro e he
      obtain ⟨c, hc, i, j, hij, t, h0, h1, rfl⟩ := hedge r (by simp) e he
      simp only [refineEdge, Option.some.injEq] at he
      subst he
      refine ⟨t, h0, h1, ?_⟩
      simp only [refineEdge]
      rw [(hv (c i) ⟨c, hc, i, rfl⟩).2, (hv (c j) ⟨c, hc, j, rfl⟩).2]) (fun he => hcell [] r rs M1 rfl Run.nil he)
    have hcell' : ∀ pre r' post M4, rs = pre ++ r' :: post → Run K M2 pre M4 → r'.edge = none → InElement K M4 r'.point :=
      fun pre r' post M4 h1 h2 h3 => hcell (r :: pre) r' post M4 (by rw [h1]; rfl) (Run.cons hstep h2) h3
    have hedge' : ∀ r' ∈ rs, ∀ e, r'.edge = some e → OnEdge K M0 r' := fun r' hr' => hedge r' (by simp [hr'])
    rcases hsc with rfl | ⟨F, m, x, μ, rfl, hin, hm, hmF, hF⟩
    · exact ih hv hedge' hcell' hM
    · exact (nested_insertAt hin hm hM.inj).trans (ih (fun v hv' => by
          obtain ⟨hv1, hv2⟩ := hv v hv'
          refine ⟨vertices_insertAt hM.inj hF hv1, ?_⟩
          rw [← hv2]
          obtain ⟨c, hc, i, rfl⟩ := hv1
          exact Function.update_of_ne (hm c hc i) _ _) hedge' hcell' (conforming_insertAt hin hm hM.inj hmF hM))

theorem mem_markedRequests {len : V → V → K} {edges : List (Fin (d + 1) × Fin (d + 1))} {isInterface : ℕ → ℕ → Bool} {M : Mesh V d} {r : Req V} :
    ∀ {cs : List (Fin (d + 1) → ℕ)} {ins : List (Finset ℕ)}, r ∈ markedRequests len edges isInterface M cs ins →
      ∃ c ∈ cs, ∃ e, LongestEdge.refinementEdge (fun i j => len (M.pos (c i)) (M.pos (c j))) edges = some e ∧ isInterface (c e.1) (c e.2) = false ∧
        r = refineMarked K M (c e.1) (c e.2)
  | [], _, h => by simp [markedRequests] at h
  | c :: cs, ins, h => by
    have up : ∀ {ins}, r ∈ markedRequests len edges isInterface M cs ins → ∃ c' ∈ c :: cs, ∃ e,
        LongestEdge.refinementEdge (fun i j => len (M.pos (c' i)) (M.pos (c' j))) edges = some e ∧ isInterface (c' e.1) (c' e.2) = false ∧
        r = refineMarked K M (c' e.1) (c' e.2) := by
      intro ins h
      obtain ⟨c', hc', h⟩ := mem_markedRequests h
      exact ⟨c', by simp [hc'], h⟩
    unfold markedRequests at h
    split at h
    · exact up h
    · rename_i e he
      split_ifs at h with hi hins
      · exact up h
      · exact up h
      · rw [List.mem_cons] at h
        rcases h with h | h
        · exact ⟨c, by simp, e, he, by simpa using hi, h⟩
        · exact up h

/-- **C193** `globalRefine` in a grid of any dimension keeps a conforming mesh of the same domain and the old vertices, and is nested. -/
theorem C193_global (hd : 0 < d) {len : V → V → K} (hsym : ∀ p q, len p q = len q p) (hpos : ∀ p q, 0 ≤ len p q)
    {edges : List (Fin (d + 1) × Fin (d + 1))} (hedges : LongestEdge.AllEdges edges) {isInterface : ℕ → ℕ → Bool} {n : ℕ} {M M' : Mesh V d}
    (hM : Conforming K M) (h : GlobalRefine len edges isInterface n M M') :
    Conforming K M' ∧ domain K M' = domain K M ∧ Nested K M M' ∧ ∀ v ∈ vertices M, v ∈ vertices M' ∧ M'.pos v = M.pos v := by
  induction h with
  | zero => exact ⟨hM, rfl, Nested.refl _, fun v hv => ⟨hv, rfl⟩⟩
  | @step n M M1 M2 hrun _ ih =>
    have hon : ∀ r ∈ markedRequests len edges isInterface M M.cells [], OnEdge K M r := by
      intro r hr
      obtain ⟨c, hc, e, he, -, rfl⟩ := mem_markedRequests hr
      haveI : Nontrivial (Fin (d + 1)) := Fin.nontrivial_iff_two_le.2 (by omega)
      obtain ⟨i, j, h1, h2, -⟩ := LongestEdge.refinementEdge_longest len hsym hpos (fun i => M.pos (c i)) hedges
      rw [he] at h1
      obtain rfl : e = (i, j) := by simpa using h1
      exact C187_marked hc (hedges.1 _ h2)
    have hno : ∀ r ∈ markedRequests len edges isInterface M M.cells [], r.edge ≠ none := by
      intro r hr
      obtain ⟨c, hc, e, he, -, rfl⟩ := mem_markedRequests hr
      simp [refineMarked]
    have hcell : ∀ pre r post M1, markedRequests len edges isInterface M M.cells [] = pre ++ r :: post → Run K M pre M1 → r.edge = none →
        InElement K M1 r.point := fun pre r post M1 h _ hr => absurd hr (hno r (by rw [h]; simp))
    obtain ⟨a1, a2, a3⟩ := C187_conforming hd hM hrun (fun r hr _ _ => hon r hr) hcell
    have a4 := C193_nested hd hM hrun (fun r hr _ _ => hon r hr) hcell
    obtain ⟨b1, b2, b3, b4⟩ := ih a1
    refine ⟨b1, b2.trans a2, a4.trans b3, fun v hv => ?_⟩
    obtain ⟨c1, c2⟩ := a3 v hv
    obtain ⟨d1, d2⟩ := b4 v c1
    exact ⟨d1, d2.trans c2⟩

theorem Carried.run {M M' : Mesh V d} {rs : List (Req V)} (h : Carried M rs M') : Run K M rs M' := by
  induction h with
  | nil => exact Run.nil
  | cons h1 h2 h3 h4 h5 _ ih => exact Run.cons (Step.edge h1 h2 h3 h4 h5) ih

theorem Carried.old {M M' : Mesh V d} {rs : List (Req V)} (h : Carried M rs M') {c : Fin (d + 1) → ℕ} (hc : ∀ i, c i ∈ vertices M) (hc' : c ∈ M'.cells)
    (hinj : ∀ c ∈ M.cells, Function.Injective c) :
    c ∈ M.cells ∧ ∀ r ∈ rs, ∀ a b, r.edge = some (a, b) → ¬ ({a, b} : Finset ℕ) ⊆ verts c := by
  induction h with
  | nil => exact ⟨hc', by simp⟩
  | @cons M M' a b x m c0 rs h1 h2 h3 h4 h5 h6 ih =>
    have hinj' : ∀ c ∈ (insertAt M {a, b} m x).cells, Function.Injective c := by
      intro c' hc'
      obtain ⟨c2, hc2, h | ⟨-, i, -, rfl⟩⟩ := mem_insertAt.1 hc'
      · rw [h.2]; exact hinj c2 hc2
      · exact injective_update (hinj c2 hc2) (h5 c2 hc2) i
    have hv : ∀ v ∈ vertices M, v ∈ vertices (insertAt M {a, b} m x) :=
      fun v hv => vertices_insertAt hinj (by rw [Finset.card_pair h2]) hv
    obtain ⟨k1, k2⟩ := ih (fun i => hv _ (hc i)) hc' hinj'
    obtain ⟨c2, hc2, h | ⟨-, i, -, rfl⟩⟩ := mem_insertAt.1 k1
    · obtain ⟨h, rfl⟩ := h
      refine ⟨hc2, fun r hr a' b' hab => ?_⟩
      rcases List.mem_cons.1 hr with rfl | hr
      · simp only [Option.some.injEq, Prod.mk.injEq] at hab
        obtain ⟨rfl, rfl⟩ := hab
        exact h
      · exact k2 r hr a' b' hab
    · obtain ⟨c3, hc3, j, hj⟩ := hc i
      exact absurd (by simpa using hj) (h5 c3 hc3 j)

/-- For every element whose selected edge is not an interface edge there is a request for this edge. -/
theorem requested {len : V → V → K} {edges : List (Fin (d + 1) × Fin (d + 1))} {isInterface : ℕ → ℕ → Bool} {M : Mesh V d} {c : Fin (d + 1) → ℕ}
    {e : Fin (d + 1) × Fin (d + 1)} (he : LongestEdge.refinementEdge (fun i j => len (M.pos (c i)) (M.pos (c j))) edges = some e)
    (hi : isInterface (c e.1) (c e.2) = false) : ∀ {cs : List (Fin (d + 1) → ℕ)} {ins : List (Finset ℕ)}, c ∈ cs →
      {c e.1, c e.2} ∈ ins ∨ ∃ r ∈ markedRequests len edges isInterface M cs ins, ∃ a b, r.edge = some (a, b) ∧ ({a, b} : Finset ℕ) = {c e.1, c e.2}
  | c' :: cs, ins, hc => by
    rcases List.mem_cons.1 hc with rfl | hc
    · unfold markedRequests
      rw [he]
      simp only [hi, Bool.false_eq_true, if_false]
      split_ifs with h
      · exact Or.inl h
      · exact Or.inr ⟨_, List.mem_cons_self, c e.1, c e.2, rfl, rfl⟩
    · unfold markedRequests
      split
      · exact requested he hi hc
      · rename_i e' he'
        split_ifs with h1 h2
        · exact requested he hi hc
        · exact requested he hi hc
        · rcases requested he hi (ins := {c' e'.1, c' e'.2} :: ins) hc with h | ⟨r, hr, a, b, h3, h4⟩
          · rcases List.mem_cons.1 h with h | h
            · exact Or.inr ⟨_, List.mem_cons_self, c' e'.1, c' e'.2, rfl, h.symm⟩
            · exact Or.inl h
          · exact Or.inr ⟨r, List.mem_cons_of_mem _ hr, a, b, h3, h4⟩

/-- The end points of the edge of a request. -/
def Req.ends (r : Req V) : Finset ℕ := match r.edge with
  | none => ∅
  | some (a, b) => {a, b}

theorem distinct {len : V → V → K} {edges : List (Fin (d + 1) × Fin (d + 1))} {isInterface : ℕ → ℕ → Bool} {M : Mesh V d} :
    ∀ {cs : List (Fin (d + 1) → ℕ)} {ins : List (Finset ℕ)}, ((markedRequests len edges isInterface M cs ins).map Req.ends).Nodup ∧
      ∀ r ∈ markedRequests len edges isInterface M cs ins, r.ends ∉ ins
  | [], ins => by simp [markedRequests]
  | c :: cs, ins => by
    unfold markedRequests
    split
    · exact distinct
    · rename_i e he
      split_ifs with h1 h2
      · exact distinct
      · exact distinct
      · obtain ⟨k1, k2⟩ := distinct (len := len) (edges := edges) (isInterface := isInterface) (M := M) (cs := cs) (ins := {c e.1, c e.2} :: ins)
        refine ⟨List.nodup_cons.2 ⟨fun h => ?_, k1⟩, fun r hr => ?_⟩
        · obtain ⟨r, hr, hr'⟩ := List.mem_map.1 h
          exact k2 r hr (by rw [hr']; exact List.mem_cons_self)
        · rcases List.mem_cons.1 hr with rfl | hr
          · exact h2
          · exact fun h => k2 r hr (List.mem_cons_of_mem _ h)

theorem exists_fresh (M : Mesh V d) : ∃ m, Fresh M m := by
  classical
  obtain ⟨m, hm⟩ := Infinite.exists_notMem_finset (M.cells.toFinset.biUnion verts)
  refine ⟨m, fun c hc i h => hm ?_⟩
  rw [Finset.mem_biUnion]
  exact ⟨c, List.mem_toFinset.2 hc, mem_verts.2 ⟨i, h⟩⟩

theorem exists_carried : ∀ {rs : List (Req V)} {M : Mesh V d}, (rs.map Req.ends).Nodup →
    (∀ r ∈ rs, ∃ a b, r.edge = some (a, b) ∧ a ≠ b ∧ ∃ c ∈ M.cells, ({a, b} : Finset ℕ) ⊆ verts c) → ∃ M', Carried M rs M'
  | [], M, _, _ => ⟨M, Carried.nil⟩
  | ⟨e, x⟩ :: rs, M, hd, h => by
    obtain ⟨a, b, rfl, hab, c, hc, hF⟩ := h _ List.mem_cons_self
    obtain ⟨m, hm⟩ := exists_fresh M
    obtain ⟨hd1, hd2⟩ := List.nodup_cons.1 hd
    have : ∃ M', Carried (insertAt M {a, b} m x) rs M' := by
      refine exists_carried hd2 fun r hr => ?_
      obtain ⟨a', b', h1, h2, c', hc', hF'⟩ := h r (List.mem_cons_of_mem _ hr)
      refine ⟨a', b', h1, h2, ?_⟩
      by_cases hs : ({a, b} : Finset ℕ) ⊆ verts c'
      · have hne : ¬ ({a, b} : Finset ℕ) ⊆ {a', b'} := by
          intro hsub
          have := Finset.eq_of_subset_of_card_le hsub (by rw [Finset.card_pair hab, Finset.card_pair h2])
          refine hd1 (List.mem_map.2 ⟨r, hr, ?_⟩)
          simp only [Req.ends, h1, this]
        obtain ⟨v, hv, hv'⟩ := Finset.not_subset.1 hne
        obtain ⟨i, rfl⟩ := mem_verts.1 (hs hv)
        refine ⟨Function.update c' i m, mem_insertAt.2 ⟨c', hc', Or.inr ⟨hs, i, hv, rfl⟩⟩, fun u hu => ?_⟩
        obtain ⟨j, rfl⟩ := mem_verts.1 (hF' hu)
        refine mem_verts.2 ⟨j, Function.update_of_ne ?_ _ _⟩
        rintro rfl
        exact hv' hu
      · exact ⟨c', mem_insertAt.2 ⟨c', hc', Or.inl ⟨hs, rfl⟩⟩, hF'⟩
    obtain ⟨M', hM'⟩ := this
    exact ⟨M', Carried.cons hc hab (mem_verts.1 (hF (by simp))) (mem_verts.1 (hF (by simp))) hm hM'⟩

/-- **C193** What one step of `globalRefine` does: an element none of whose longest edges is an interface edge is replaced, if no request is dropped; and the requests do
not hinder each other: all can be carried out. -/
theorem C193_refined (hd : 0 < d) {len : V → V → K} (hsym : ∀ p q, len p q = len q p) (hpos : ∀ p q, 0 ≤ len p q)
    {edges : List (Fin (d + 1) × Fin (d + 1))} (hedges : LongestEdge.AllEdges edges) {isInterface : ℕ → ℕ → Bool} {M : Mesh V d} (hM : Conforming K M) :
    (∃ M', Carried M (markedRequests len edges isInterface M M.cells []) M') ∧
    ∀ M', Carried M (markedRequests len edges isInterface M M.cells []) M' → ∀ c ∈ M.cells,
      (∀ i j, LongestEdge.IsLongest len (fun i => M.pos (c i)) i j → isInterface (c i) (c j) = false) → c ∉ M'.cells := by
  haveI : Nontrivial (Fin (d + 1)) := Fin.nontrivial_iff_two_le.2 (by omega)
  constructor
  · refine exists_carried distinct.1 fun r hr => ?_
    obtain ⟨c, hc, e, he, -, rfl⟩ := mem_markedRequests hr
    obtain ⟨i, j, h1, h2, -⟩ := LongestEdge.refinementEdge_longest len hsym hpos (fun i => M.pos (c i)) hedges
    rw [he] at h1
    obtain rfl : e = (i, j) := by simpa using h1
    refine ⟨c i, c j, rfl, fun h => hedges.1 _ h2 (hM.inj c hc h), c, hc, ?_⟩
    intro v hv
    simp only [Finset.mem_insert, Finset.mem_singleton] at hv
    rcases hv with rfl | rfl
    · exact mem_verts.2 ⟨i, rfl⟩
    · exact mem_verts.2 ⟨j, rfl⟩
  · intro M' hM' c hc hi hc'
    obtain ⟨i, j, h1, h2, h3⟩ := LongestEdge.refinementEdge_longest len hsym hpos (fun i => M.pos (c i)) hedges
    rcases requested h1 (hi i j h3) (ins := []) hc with h | ⟨r, hr, a, b, h4, h5⟩
    · simp at h
    · refine (hM'.old (fun k => ⟨c, hc, k, rfl⟩) hc' hM.inj).2 r hr a b h4 ?_
      rw [h5]
      intro v hv
      simp only [Finset.mem_insert, Finset.mem_singleton] at hv
      rcases hv with rfl | rfl
      · exact mem_verts.2 ⟨i, rfl⟩
      · exact mem_verts.2 ⟨j, rfl⟩

/-! ## Examples -/

/-- Squared length, in place of the length: it has the same order. -/
def len2 (p q : Fin 2 → ℚ) : ℚ := (p 0 - q 0) ^ 2 + (p 1 - q 1) ^ 2

theorem requests_triangle : markedRequests len2 LongestEdge.triangleEdges (fun _ _ => false) triangle triangle.cells [] = [refineMarked ℚ triangle 1 2] := by
  have h : LongestEdge.refinementEdge (fun i j => len2 (triangle.pos ((![0, 1, 2] : Fin 3 → ℕ) i)) (triangle.pos ((![0, 1, 2] : Fin 3 → ℕ) j)))
      LongestEdge.triangleEdges = some (1, 2) := by
    decide +kernel
  show markedRequests len2 LongestEdge.triangleEdges (fun _ _ => false) triangle [![0, 1, 2]] [] = _
  unfold markedRequests
  rw [h]
  simp [markedRequests]

/-- `globalRefine(1)` halves the triangle at its longest edge, from `(1, 0)` to `(0, 1)`. -/
example : ∃ M' : Mesh (Fin 2 → ℚ) 2, GlobalRefine len2 LongestEdge.triangleEdges (fun _ _ => false) 1 triangle M' ∧ M'.cells.length = 2 ∧
    M'.pos 3 = ![1 / 2, 1 / 2] ∧ Nested ℚ triangle M' := by
  have hr : GlobalRefine len2 LongestEdge.triangleEdges (fun _ _ => false) 1 triangle
      (insertAt triangle {1, 2} 3 ((1 / 2 : ℚ) • (triangle.pos 1 + triangle.pos 2))) := by
    refine GlobalRefine.step ?_ GlobalRefine.zero
    rw [requests_triangle]
    exact Run.cons (Step.edge (c := ![0, 1, 2]) (by simp [triangle]) (by decide) ⟨1, rfl⟩ ⟨2, rfl⟩ fresh_triangle) Run.nil
  refine ⟨_, hr, by decide, ?_, (C193_global (by decide) (fun p q => by unfold len2; ring) (fun p q => by unfold len2; positivity)
    LongestEdge.allEdges_triangle conforming_triangle hr).2.2.1⟩
  funext k
  fin_cases k <;> simp [insertAt, triangle]

/-- **C194** `globalRefine` does not refine every element: no request is made for interface edges. If the longest edge of the triangle belongs to the interface,
nothing is refined at all, however many steps are made. -/
theorem C194_interface_false : ¬ ∀ (n : ℕ) (isInterface : ℕ → ℕ → Bool) (M M' : Mesh (Fin 2 → ℚ) 2), 0 < n → Conforming ℚ M →
    GlobalRefine len2 LongestEdge.triangleEdges isInterface n M M' → ∀ c ∈ M.cells, c ∉ M'.cells := by
  intro h
  have hreq : markedRequests len2 LongestEdge.triangleEdges (fun a b => a == 1 && b == 2) triangle triangle.cells [] = [] := by
    have h : LongestEdge.refinementEdge (fun i j => len2 (triangle.pos ((![0, 1, 2] : Fin 3 → ℕ) i)) (triangle.pos ((![0, 1, 2] : Fin 3 → ℕ) j)))
        LongestEdge.triangleEdges = some (1, 2) := by
      decide +kernel
    show markedRequests len2 LongestEdge.triangleEdges (fun a b => a == 1 && b == 2) triangle [![0, 1, 2]] [] = _
    unfold markedRequests
    rw [h]
    simp [markedRequests]
  have hr : ∀ n, GlobalRefine len2 LongestEdge.triangleEdges (fun a b => a == 1 && b == 2) n triangle triangle := by
    intro n
    induction n with
    | zero => exact GlobalRefine.zero
    | succ n ih =>
      refine GlobalRefine.step ?_ ih
      rw [hreq]
      exact Run.nil
  exact h 5 _ triangle triangle (by norm_num) conforming_triangle (hr 5) ![0, 1, 2] (by simp [triangle]) (by simp [triangle])

end Verif.Refine
