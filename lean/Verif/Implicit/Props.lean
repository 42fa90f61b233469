import Verif.Implicit.Model
import Verif.Factory.SegProps

/-!
# C86: the implicit grid factory
-/

namespace Verif.Implicit

open Verif RefElem

variable {P : Type} [DecidableEq P]

/-! ## Specification -/

/-- The positions passed to `insertVertex`, in the order of the calls. -/
def positions : List (Call P) → List P
  | [] => []
  | .insertVertex p :: cs => p :: positions cs
  | _ :: cs => positions cs

/-- The number of the last insertion at position `p`. -/
def LastAt (ps : List P) (p : P) (i : Nat) : Prop := ps[i]? = some p ∧ ∀ j, ps[j]? = some p → j ≤ i

/-! ## Proofs -/

theorem positions_append (h h' : List (Call P)) : positions (h ++ h') = positions h ++ positions h' := by
  induction h with
  | nil => rfl
  | cons c h ih => cases c <;> simp [positions, ih]

theorem run_append (s : State P) (h h' : List (Call P)) : run s (h ++ h') = (run s h).bind fun s' => run s' h' := by
  induction h generalizing s with
  | nil => rfl
  | cons c h ih =>
    simp only [List.cons_append, run]
    cases (step s c).state with
    | none => rfl
    | some s1 => simp only [Option.bind_some]; exact ih s1

structure Inv (ps : List P) (s : State P) : Prop where
  count : s.countVertices = ps.length
  len : s.vhs.length = ps.length
  at_ : ∀ (i : Nat) (p : P), ps[i]? = some p → ∃ (h : Nat) (v : Vtx P), s.vhs[i]? = some h ∧ s.verts[h]? = some v ∧ v.point = p
  nodup : (s.verts.map (·.point)).Nodup
  last : ∀ v ∈ s.verts, LastAt ps v.point v.id
  flag : ∀ v ∈ s.verts, v.isInterface = false

theorem inv_insertVertex {ps : List P} {s : State P} (I : Inv ps s) (p : P) : Inv (ps ++ [p]) (insertVertex s p) := by
  -- the handle and the list of vertices after CGAL's insertion
  obtain ⟨h, vs, e, hv, hnd, hold, hnew, hflag⟩ : ∃ (h : Nat) (vs : List (Vtx P)), trInsert s.verts p = (h, vs) ∧ (∃ v, vs[h]? = some v ∧ v.point = p) ∧
      (vs.map (·.point)).Nodup ∧ (∀ (k : Nat) (v : Vtx P), s.verts[k]? = some v → vs[k]? = some v) ∧
      (∀ (k : Nat) (v : Vtx P), vs[k]? = some v → k ≠ h → v ∈ s.verts) ∧ ∀ v ∈ vs, v.isInterface = false := by
    unfold trInsert
    cases hf : s.verts.findIdx? (fun v => v.point = p) with
    | some k =>
      obtain ⟨hk, hp, -⟩ := List.findIdx?_eq_some_iff_getElem.1 hf
      refine ⟨k, s.verts, rfl, ⟨s.verts[k], List.getElem?_eq_getElem hk, by simpa using hp⟩, I.nodup, fun _ _ h => h, fun k' v h _ => List.mem_of_getElem? h, I.flag⟩
    | none =>
      have hn : ∀ v ∈ s.verts, v.point ≠ p := fun v hv => by
        have := List.findIdx?_eq_none_iff.1 hf v hv; simpa using this
      refine ⟨s.verts.length, s.verts ++ [⟨p, 0, false⟩], rfl, ⟨⟨p, 0, false⟩, by simp, rfl⟩, ?_, ?_, ?_, ?_⟩
      · rw [List.map_append, List.nodup_append]
        refine ⟨I.nodup, by simp, ?_⟩
        intro a ha b hb
        obtain ⟨v, hv, rfl⟩ := List.mem_map.1 ha
        simp only [List.map_cons, List.map_nil, List.mem_cons, List.not_mem_nil, or_false] at hb
        rw [hb]
        exact hn v hv
      · intro k v hk
        rw [List.getElem?_append_left (List.getElem?_eq_some_iff.1 hk).1, hk]
      · intro k v hk hne
        by_cases hlt : k < s.verts.length
        · rw [List.getElem?_append_left hlt] at hk
          exact List.mem_of_getElem? hk
        · have : k < (s.verts ++ [(⟨p, 0, false⟩ : Vtx P)]).length := (List.getElem?_eq_some_iff.1 hk).1
          simp at this
          omega
      · intro v hv
        rcases List.mem_append.1 hv with hv | hv
        · exact I.flag v hv
        · simp only [List.mem_cons, List.not_mem_nil, or_false] at hv
          rw [hv]
  have hfinal : insertVertex s p = { s with
      verts := vs.modify h fun v => { v with id := s.countVertices }
      countVertices := s.countVertices + 1
      vhs := s.vhs ++ [h] } := by
    unfold insertVertex
    rw [e]
  have hget : ∀ (k : Nat) (v : Vtx P), (vs.modify h fun v => { v with id := s.countVertices })[k]? = some v →
      ∃ v0, vs[k]? = some v0 ∧ v.point = v0.point ∧ v.isInterface = v0.isInterface ∧ (if k = h then v.id = s.countVertices else v = v0) := by
    intro k v hk
    rw [List.getElem?_modify] at hk
    by_cases hkh : h = k
    · simp only [hkh, if_true, Option.map_eq_map, Option.map_eq_some_iff] at hk
      obtain ⟨v0, h0, rfl⟩ := hk
      exact ⟨v0, h0, rfl, rfl, by rw [if_pos hkh.symm]⟩
    · simp only [hkh, if_false, Option.map_eq_map, Option.map_eq_some_iff] at hk
      obtain ⟨v0, h0, rfl⟩ := hk
      exact ⟨v0, h0, rfl, rfl, by rw [if_neg (Ne.symm hkh)]⟩
  have hpts : ∀ (k : Nat) (v0 : Vtx P), vs[k]? = some v0 → ∃ v, (vs.modify h fun v => { v with id := s.countVertices })[k]? = some v ∧ v.point = v0.point := by
    intro k v0 hk
    rw [List.getElem?_modify, hk]
    by_cases hkh : h = k
    · simp only [hkh, if_true]; exact ⟨_, rfl, rfl⟩
    · simp only [hkh, if_false]; exact ⟨_, rfl, rfl⟩
  obtain ⟨vh, hvh, hvp⟩ := hv
  rw [hfinal]
  refine ⟨by simp [I.count], by simp [I.len], ?_, ?_, ?_, ?_⟩
  · intro i q hq
    by_cases hi : i < ps.length
    · rw [List.getElem?_append_left hi] at hq
      obtain ⟨k, v, h1, h2, h3⟩ := I.at_ i q hq
      obtain ⟨v', h4, h5⟩ := hpts k v (hold k v h2)
      exact ⟨k, v', by rw [List.getElem?_append_left (by rw [I.len]; exact hi)]; exact h1, h4, h5.trans h3⟩
    · have hlt : i < (ps ++ [p]).length := (List.getElem?_eq_some_iff.1 hq).1
      have hi' : i = ps.length := by simp at hlt; omega
      subst hi'
      simp only [List.getElem?_concat_length, Option.some.injEq] at hq
      subst hq
      obtain ⟨v', h4, h5⟩ := hpts h vh hvh
      exact ⟨h, v', by rw [← I.len]; simp, h4, h5.trans hvp⟩
  · have : (vs.modify h fun v => { v with id := s.countVertices }).map (·.point) = vs.map (·.point) := by
      refine List.ext_getElem? fun k => ?_
      rw [List.getElem?_map, List.getElem?_map, List.getElem?_modify]
      by_cases hkh : h = k
      · simp only [hkh, if_true]; cases vs[k]? <;> rfl
      · simp only [hkh, if_false]; cases vs[k]? <;> rfl
    simp only [this]
    exact hnd
  · intro v hv
    obtain ⟨k, hk⟩ := List.getElem?_of_mem hv
    obtain ⟨v0, h0, h1, -, h2⟩ := hget k v hk
    by_cases hkh : k = h
    · rw [if_pos hkh] at h2
      subst hkh
      rw [hvh] at h0
      cases h0
      rw [h1, hvp, h2, I.count]
      refine ⟨by simp, fun j hj => ?_⟩
      have : j < (ps ++ [p]).length := (List.getElem?_eq_some_iff.1 hj).1
      simp at this
      omega
    · rw [if_neg hkh] at h2
      subst h2
      obtain ⟨l1, l2⟩ := I.last v (hnew k v h0 hkh)
      have hvi : v.id < ps.length := (List.getElem?_eq_some_iff.1 l1).1
      refine ⟨by rw [List.getElem?_append_left hvi]; exact l1, fun j hj => ?_⟩
      by_cases hjl : j < ps.length
      · rw [List.getElem?_append_left hjl] at hj
        exact l2 j hj
      · exfalso
        have hlt : j < (ps ++ [p]).length := (List.getElem?_eq_some_iff.1 hj).1
        have hj' : j = ps.length := by simp at hlt; omega
        subst hj'
        simp only [List.getElem?_concat_length, Option.some.injEq] at hj
        have hkl : k < (vs.map (·.point)).length := by rw [List.length_map]; exact (List.getElem?_eq_some_iff.1 h0).1
        have hhl : h < (vs.map (·.point)).length := by rw [List.length_map]; exact (List.getElem?_eq_some_iff.1 hvh).1
        refine hkh ((List.Nodup.getElem_inj_iff hnd (hi := hkl) (hj := hhl)).1 ?_)
        rw [List.getElem_map, List.getElem_map, (List.getElem?_eq_some_iff.1 h0).2, (List.getElem?_eq_some_iff.1 hvh).2, ← hj, hvp]
  · intro v hv
    obtain ⟨k, hk⟩ := List.getElem?_of_mem hv
    obtain ⟨v0, h0, -, h2, -⟩ := hget k v hk
    rw [h2]
    exact hflag v0 (List.mem_of_getElem? h0)

theorem inv_of_same {ps : List P} {s s' : State P} (I : Inv ps s) (h1 : s'.verts = s.verts) (h2 : s'.vhs = s.vhs) (h3 : s'.countVertices = s.countVertices) : Inv ps s' :=
  ⟨by rw [h3]; exact I.count, by rw [h2]; exact I.len, by rw [h1, h2]; exact I.at_, by rw [h1]; exact I.nodup, by rw [h1]; exact I.last, by rw [h1]; exact I.flag⟩

/-- A call that is not `insertVertex` leaves vertices, handles and counter alone. -/
theorem step_same {s s' : State P} {c : Call P} (hc : ∀ p, c ≠ .insertVertex p) (hs : (step s c).state = some s') :
    s'.verts = s.verts ∧ s'.vhs = s.vhs ∧ s'.countVertices = s.countVertices := by
  cases c with
  | insertVertex p => exact absurd rfl (hc p)
  | insertBoundarySegment vs =>
    simp only [step] at hs
    cases h1 : idsOf s vs with
    | none => rw [h1] at hs; simp [Outcome.state] at hs
    | some ids =>
      rw [h1] at hs
      simp only at hs
      cases h2 : Map.find s.boundarySegments (sortIds ids) with
      | some i => rw [h2] at hs; simp only [Outcome.state, Option.some.injEq] at hs; subst hs; exact ⟨rfl, rfl, rfl⟩
      | none => rw [h2] at hs; simp only [Outcome.state, Option.some.injEq] at hs; subst hs; exact ⟨rfl, rfl, rfl⟩
  | insertInterface vs m =>
    simp only [step] at hs
    cases h1 : idsOf s vs with
    | none => rw [h1] at hs; simp [Outcome.state] at hs
    | some ids => rw [h1] at hs; simp only [Outcome.state, Option.some.injEq] at hs; subst hs; exact ⟨rfl, rfl, rfl⟩

theorem inv_run {h : List (Call P)} {s : State P} (hs : run {} h = some s) : Inv (positions h) s := by
  induction h using List.reverseRecOn generalizing s with
  | nil =>
    simp only [run, Option.some.injEq] at hs
    subst hs
    exact ⟨rfl, rfl, fun i p hp => by simp [positions] at hp, by simp, fun v hv => by simp at hv, fun v hv => by simp at hv⟩
  | append_singleton h c ih =>
    rw [run_append] at hs
    cases h1 : run {} h with
    | none => rw [h1] at hs; simp at hs
    | some s1 =>
      rw [h1] at hs
      simp only [Option.bind_some, run] at hs
      have hs2 : (step s1 c).state = some s := by
        cases h2 : (step s1 c).state with
        | none => rw [h2] at hs; simp at hs
        | some s2 => rw [h2] at hs; simpa [run] using hs
      have I := ih h1
      cases c with
      | insertVertex p =>
        rw [positions_append]
        simp only [step, Outcome.state, Option.some.injEq] at hs2
        subst hs2
        exact inv_insertVertex I p
      | insertBoundarySegment vs =>
        obtain ⟨e1, e2, e3⟩ := step_same (by simp) hs2
        rw [positions_append]; simp only [positions, List.append_nil]
        exact inv_of_same I e1 e2 e3
      | insertInterface vs m =>
        obtain ⟨e1, e2, e3⟩ := step_same (by simp) hs2
        rw [positions_append]; simp only [positions, List.append_nil]
        exact inv_of_same I e1 e2 e3

/-! ## C86: vertices -/

/-- C86: the vertices of the grid are the inserted positions, each once. -/
theorem C86_vertices (h : List (Call P)) (s : State P) (hs : run {} h = some s) :
    (s.verts.map (·.point)).Nodup ∧ ∀ p, p ∈ s.verts.map (·.point) ↔ p ∈ positions h := by
  have I := inv_run hs
  refine ⟨I.nodup, fun p => ⟨fun hp => ?_, fun hp => ?_⟩⟩
  · obtain ⟨v, hv, rfl⟩ := List.mem_map.1 hp
    exact List.mem_of_getElem? (I.last v hv).1
  · obtain ⟨i, hi⟩ := List.getElem?_of_mem hp
    obtain ⟨k, v, -, h2, h3⟩ := I.at_ i p hi
    exact List.mem_map.2 ⟨v, List.mem_of_getElem? h2, h3⟩

/-- C86, outright: the insertion index of a vertex is the number of the last insertion at its position. -/
theorem C86_last (h : List (Call P)) (s : State P) (hs : run {} h = some s) (k : Nat) (v : Vtx P) (hv : s.verts[k]? = some v) :
    ∃ i, insertionIndex s k = some i ∧ LastAt (positions h) v.point i :=
  ⟨v.id, by unfold insertionIndex; rw [hv]; rfl, (inv_run hs).last v (List.mem_of_getElem? hv)⟩

/-- C86: if the positions are different, vertex number `i` of the calls is a vertex of the grid with insertion index `i`. With equal positions
the index is that of the last one (`C86_last`, `C139_index_false`). -/
theorem C86_index (h : List (Call P)) (s : State P) (hs : run {} h = some s) (hnd : (positions h).Nodup) (i : Nat) (p : P) (hi : (positions h)[i]? = some p) :
    ∃ (k : Nat) (v : Vtx P), s.verts[k]? = some v ∧ v.point = p ∧ insertionIndex s k = some i := by
  have I := inv_run hs
  obtain ⟨k, v, -, h2, h3⟩ := I.at_ i p hi
  obtain ⟨j, hj, hl, -⟩ := C86_last h s hs k v h2
  refine ⟨k, v, h2, h3, ?_⟩
  rw [hj]
  rw [h3] at hl
  have e1 := List.getElem?_eq_some_iff.1 hl
  have e2 := List.getElem?_eq_some_iff.1 hi
  exact congrArg some ((List.Nodup.getElem_inj_iff hnd (hi := e1.1) (hj := e2.1)).1 (e1.2.trans e2.2.symm))

/-- C139 fails for equal positions: after inserting points 7, 8, 7 no vertex has insertion index 0. -/
theorem C139_index_false : ∃ s, run ({} : State Nat) [.insertVertex 7, .insertVertex 8, .insertVertex 7] = some s ∧
    ∀ k, insertionIndex s k ≠ some 0 := by
  refine ⟨⟨[⟨7, 2, false⟩, ⟨8, 1, false⟩], [0, 1, 0], 3, [], 0, []⟩, rfl, fun k h => ?_⟩
  obtain ⟨v, hv, e⟩ := Option.map_eq_some_iff.1 h
  have := List.mem_of_getElem? hv
  simp only [List.mem_cons, List.not_mem_nil, or_false] at this
  rcases this with rfl | rfl
  · exact absurd e (by decide)
  · exact absurd e (by decide)

/-! ## C86: segments -/

/-- The vertices at the positions number `vs`. -/
def vertsAt (ps : List P) (s : State P) (vs : List Nat) (us : List (Vtx P)) : Prop :=
  List.Forall₂ (fun v u => u ∈ s.verts ∧ ps[v]? = some u.point) vs us

theorem mapM_some {α β : Type} (f : α → Option β) (l : List α) (r : List β) (h : l.mapM f = some r) : List.Forall₂ (fun a b => f a = some b) l r := by
  induction l generalizing r with
  | nil => simp only [List.mapM_nil, Option.pure_def, Option.some.injEq] at h; subst h; exact .nil
  | cons a l ih =>
    simp only [List.mapM_cons, Option.pure_def, Option.bind_eq_bind] at h
    cases h1 : f a with
    | none => rw [h1] at h; simp at h
    | some b =>
      rw [h1] at h
      simp only [Option.bind_some] at h
      cases h2 : l.mapM f with
      | none => rw [h2] at h; simp at h
      | some bs =>
        rw [h2] at h
        simp only [Option.bind_some, Option.some.injEq] at h
        subst h
        exact .cons h1 (ih bs h2)

/-- In a state of a history the ids of `vhs_[v]` are the ids of vertices at the positions `v`. -/
theorem idsOf_verts {ps : List P} {s : State P} (I : Inv ps s) (vs ids : List Nat) (h : idsOf s vs = some ids) :
    ∃ us, vertsAt ps s vs us ∧ us.map (·.id) = ids := by
  have h1 := mapM_some _ _ _ h
  clear h
  induction h1 with
  | nil => exact ⟨[], .nil, rfl⟩
  | @cons v id vs ids hv _ ih =>
    obtain ⟨us, h2, h3⟩ := ih
    cases hh : s.vhs[v]? with
    | none => rw [hh] at hv; simp at hv
    | some k =>
      rw [hh] at hv
      simp only [Option.bind_some, Option.map_eq_some_iff] at hv
      obtain ⟨u, hu, rfl⟩ := hv
      have hlt : v < ps.length := by rw [← I.len]; exact (List.getElem?_eq_some_iff.1 hh).1
      obtain ⟨k', u', e1, e2, e3⟩ := I.at_ v ps[v] (List.getElem?_eq_getElem hlt)
      rw [hh] at e1
      cases e1
      rw [hu] at e2
      cases e2
      exact ⟨u :: us, .cons ⟨List.mem_of_getElem? hu, by rw [List.getElem?_eq_getElem hlt, e3]⟩ h2, by simp [h3]⟩

/-- C139: if no vertex is inserted after the segments (`calls` contains no `insertVertex`), every inserted interface segment is stored with the ids that its
vertices have in the grid. What is missing: `C139_stale_false`. -/
theorem C139_segment_partial (pre calls : List (Call P)) (hc : ∀ p, Call.insertVertex p ∉ calls) (s : State P) (hs : run {} (pre ++ calls) = some s) (vs : List Nat) (m : Nat)
    (hm : Call.insertInterface vs m ∈ calls) :
    ∃ us m', vertsAt (positions pre) s vs us ∧ Map.find s.interfaceSegments (sortIds (us.map (·.id))) = some m' := by
  rw [run_append] at hs
  cases h0 : run {} pre with
  | none => rw [h0] at hs; simp at hs
  | some s0 =>
    rw [h0, Option.bind_some] at hs
    have I := inv_run h0
    -- the vertices stay, and stored segments stay
    suffices key : ∀ (l : List (Call P)) (s1 s2 : State P), (∀ p, Call.insertVertex p ∉ l) → run s1 l = some s2 → Inv (positions pre) s1 →
        s2.verts = s1.verts ∧ (∀ k, (Map.find s1.interfaceSegments k).isSome → (Map.find s2.interfaceSegments k).isSome) ∧
          (Call.insertInterface vs m ∈ l → ∃ us m', vertsAt (positions pre) s2 vs us ∧ Map.find s2.interfaceSegments (sortIds (us.map (·.id))) = some m') from
      (key calls s0 s hc hs I).2.2 hm
    intro l
    induction l with
    | nil =>
      intro s1 s2 _ hr _
      simp only [run, Option.some.injEq] at hr
      subst hr
      exact ⟨rfl, fun _ h => h, fun h => by simp at h⟩
    | cons c l ih =>
      intro s1 s2 hv hr I1
      simp only [run] at hr
      cases hst : (step s1 c).state with
      | none => rw [hst] at hr; simp at hr
      | some s1' =>
        rw [hst, Option.bind_some] at hr
        have hcv : ∀ p, c ≠ .insertVertex p := fun p e => hv p (by simp [e])
        obtain ⟨e1, e2, e3⟩ := step_same hcv hst
        have I2 := inv_of_same I1 e1 e2 e3
        obtain ⟨a1, a2, a3⟩ := ih s1' s2 (fun p hp => hv p (by simp [hp])) hr I2
        have keep : ∀ k, (Map.find s1.interfaceSegments k).isSome → (Map.find s1'.interfaceSegments k).isSome := by
          intro k hk
          cases c with
          | insertVertex p => exact absurd rfl (hcv p)
          | insertBoundarySegment ws =>
            simp only [step] at hst
            cases h1 : idsOf s1 ws with
            | none => rw [h1] at hst; simp [Outcome.state] at hst
            | some ids =>
              rw [h1] at hst
              simp only at hst
              cases h2 : Map.find s1.boundarySegments (sortIds ids) with
              | some i => rw [h2] at hst; simp only [Outcome.state, Option.some.injEq] at hst; subst hst; exact hk
              | none => rw [h2] at hst; simp only [Outcome.state, Option.some.injEq] at hst; subst hst; exact hk
          | insertInterface ws m2 =>
            simp only [step] at hst
            cases h1 : idsOf s1 ws with
            | none => rw [h1] at hst; simp [Outcome.state] at hst
            | some ids =>
              rw [h1] at hst
              simp only [Outcome.state, Option.some.injEq] at hst
              subst hst
              obtain ⟨x, hx⟩ := Option.isSome_iff_exists.1 hk
              have := Map.find_isSome_iff.1 ⟨x, hx⟩
              obtain ⟨y, hy⟩ := Map.find_isSome_iff.2 (Map.mem_keys_insert.2 (Or.inl this) : k ∈ (Map.insert s1.interfaceSegments (sortIds ids) m2).map Prod.fst)
              exact Option.isSome_iff_exists.2 ⟨y, hy⟩
        refine ⟨a1.trans e1, fun k hk => a2 k (keep k hk), fun hmem => ?_⟩
        rcases List.mem_cons.1 hmem with rfl | hmem
        · simp only [step] at hst
          cases h1 : idsOf s1 vs with
          | none => rw [h1] at hst; simp [Outcome.state] at hst
          | some ids =>
            rw [h1] at hst
            simp only [Outcome.state, Option.some.injEq] at hst
            obtain ⟨us, hu1, hu2⟩ := idsOf_verts I1 vs ids h1
            have hin : (Map.find s1'.interfaceSegments (sortIds ids)).isSome := by
              rw [← hst]
              obtain ⟨y, hy⟩ := Map.find_isSome_iff.2 (Map.mem_keys_insert.2 (Or.inr rfl) : sortIds ids ∈ (Map.insert s1.interfaceSegments (sortIds ids) m).map Prod.fst)
              exact Option.isSome_iff_exists.2 ⟨y, hy⟩
            obtain ⟨m', hm'⟩ := Option.isSome_iff_exists.1 (a2 _ hin)
            refine ⟨us, m', ?_, by rw [hu2]; exact hm'⟩
            unfold vertsAt at hu1 ⊢
            rw [a1, e1]
            exact hu1
        · exact a3 hmem

/-- The hypotheses hold for two points and the segment between them. -/
example : ∃ s, run ({} : State Nat) ([.insertVertex 7, .insertVertex 8] ++ [.insertInterface [1, 0] 5]) = some s ∧ Map.find s.interfaceSegments [0, 1] = some 5 :=
  ⟨_, rfl, by decide⟩

/-- C139 fails if a vertex is inserted again after the segment: the segment is stored with the old id, which no vertex has any more. -/
theorem C139_stale_false : ∃ s, run ({} : State Nat) [.insertVertex 7, .insertVertex 8, .insertInterface [0, 1] 5, .insertVertex 7] = some s ∧
    s.interfaceSegments = [([0, 1], 5)] ∧ ∀ v ∈ s.verts, v.id ≠ 0 := ⟨_, rfl, by decide, by decide⟩

/-- C139 fails for the interface: whatever is inserted, no facet of the grid created by the implicit factory is an interface facet, because the factory does not
flag the vertices. -/
theorem C139_interface_false (h : List (Call P)) (s : State P) (hs : run {} h = some s) (facet : List (Vtx P)) (hf : facet ≠ []) (hm : ∀ v ∈ facet, v ∈ s.verts) :
    isInterface s facet = false := by
  have I := inv_run hs
  cases facet with
  | nil => exact absurd rfl hf
  | cons v t =>
    unfold isInterface
    rw [List.all_cons, I.flag v (hm v (by simp))]
    rfl

/-- The segment 0–1 is inserted as interface and is stored, but it is not an interface facet. -/
example : ∃ s, run ({} : State Nat) [.insertVertex 7, .insertVertex 8, .insertInterface [0, 1] 5] = some s ∧
    s.interfaceSegments = [([0, 1], 5)] ∧ isInterface s s.verts = false := ⟨_, rfl, by decide, by decide⟩

end Verif.Implicit
