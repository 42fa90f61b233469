import Verif.Factory.Segments

/-!
# C15, C16, C17: boundary segments, interface segments

Segments are given by their vertices in any order; `vs.Perm ws` says that two calls mean the same segment.
-/

namespace Verif.Segments

open Verif RefElem

theorem sort_eq_iff (l m : List Nat) : sortIds l = sortIds m ↔ l.Perm m := by
  constructor
  · intro h
    exact (sortIds_perm l).symm.trans (h ▸ sortIds_perm m)
  · intro h
    have hp : (sortIds l).Perm (sortIds m) := (sortIds_perm l).trans (h.trans (sortIds_perm m).symm)
    exact hp.eq_of_pairwise (fun a b _ _ h1 h2 => le_antisymm h1 h2) (sortIds_sorted l) (sortIds_sorted m)

/-! ### the state after a history -/

/-- The segment was named in a call of `insertBoundarySegment`. -/
def CalledBoundary (h : List Call) (seg : List Nat) : Prop := ∃ vs, Call.insertBoundarySegment vs ∈ h ∧ vs.Perm seg

/-- The segment was named in a call of `insertInterface`. -/
def CalledInterface (h : List Call) (seg : List Nat) : Prop := ∃ vs m, Call.insertInterface vs m ∈ h ∧ vs.Perm seg

/-- The segment was named in a call of `insertInterfaceBoundarySegment`. -/
def CalledInterfaceBoundary (h : List Call) (seg : List Nat) : Prop :=
  ∃ vs, Call.insertInterfaceBoundarySegment vs ∈ h ∧ vs.Perm seg

structure Inv (h : List Call) (s : State) : Prop where
  bnd : ∀ vs, sortIds vs ∈ s.boundarySegments.map Prod.fst ↔ CalledBoundary h vs
  sorted : ∀ k ∈ s.boundarySegments.map Prod.fst, sortIds k = k
  nodup : (s.boundarySegments.map Prod.fst).Nodup
  numbered : s.boundarySegments.map Prod.snd = List.range s.countBoundarySegments
  ifc : ∀ vs, sortIds vs ∈ s.interfaceSegments.map Prod.fst ↔ CalledInterface h vs
  ifcSorted : ∀ k ∈ s.interfaceSegments.map Prod.fst, sortIds k = k
  ifcNodup : (s.interfaceSegments.map Prod.fst).Nodup

theorem sortIds_idem (l : List Nat) : sortIds (sortIds l) = sortIds l := (sort_eq_iff _ _).2 (sortIds_perm l)

theorem called_append (h : List Call) (c : Call) (vs : List Nat) :
    (CalledBoundary (h ++ [c]) vs ↔ CalledBoundary h vs ∨ ∃ ws, c = .insertBoundarySegment ws ∧ ws.Perm vs) ∧
    (CalledInterface (h ++ [c]) vs ↔ CalledInterface h vs ∨ ∃ ws m, c = .insertInterface ws m ∧ ws.Perm vs) := by
  unfold CalledBoundary CalledInterface
  simp only [List.mem_append, List.mem_cons, List.not_mem_nil, or_false]
  constructor
  · constructor
    · rintro ⟨ws, h1 | h1, h2⟩
      · exact Or.inl ⟨ws, h1, h2⟩
      · exact Or.inr ⟨ws, h1.symm, h2⟩
    · rintro (⟨ws, h1, h2⟩ | ⟨ws, h1, h2⟩)
      · exact ⟨ws, Or.inl h1, h2⟩
      · exact ⟨ws, Or.inr h1.symm, h2⟩
  · constructor
    · rintro ⟨ws, m, h1 | h1, h2⟩
      · exact Or.inl ⟨ws, m, h1, h2⟩
      · exact Or.inr ⟨ws, m, h1.symm, h2⟩
    · rintro (⟨ws, m, h1, h2⟩ | ⟨ws, m, h1, h2⟩)
      · exact ⟨ws, m, Or.inl h1, h2⟩
      · exact ⟨ws, m, Or.inr h1.symm, h2⟩

theorem sortedIds_some {s : State} {vs : List Nat} {k : Key} (h : sortedIds s vs = some k) : k = sortIds vs := by
  unfold sortedIds at h
  split at h
  · exact (Option.some.inj h).symm
  · exact absurd h (by simp)

theorem inv_step {h : List Call} {s : State} (I : Inv h s) (c : Call) {s' : State} (hs : (step s c).state = some s') :
    Inv (h ++ [c]) s' := by
  have ca := called_append h c
  cases c with
  | insertVertex =>
    simp only [step, Outcome.state, Option.some.injEq] at hs
    subst hs
    have e1 : ∀ vs, CalledBoundary (h ++ [Call.insertVertex]) vs ↔ CalledBoundary h vs := by intro vs; rw [(ca vs).1]; simp
    have e2 : ∀ vs, CalledInterface (h ++ [Call.insertVertex]) vs ↔ CalledInterface h vs := by intro vs; rw [(ca vs).2]; simp
    exact ⟨fun vs => by rw [e1]; exact I.bnd vs, I.sorted, I.nodup, I.numbered,
      fun vs => by rw [e2]; exact I.ifc vs, I.ifcSorted, I.ifcNodup⟩
  | insertBoundarySegment ws =>
    have e2 : ∀ vs, CalledInterface (h ++ [Call.insertBoundarySegment ws]) vs ↔ CalledInterface h vs := by
      intro vs; rw [(ca vs).2]; simp
    have e1 : ∀ vs, CalledBoundary (h ++ [Call.insertBoundarySegment ws]) vs ↔ CalledBoundary h vs ∨ ws.Perm vs := by
      intro vs; rw [(ca vs).1]; simp
    simp only [step] at hs
    cases hk : sortedIds s ws with
    | none => rw [hk] at hs; simp [Outcome.state] at hs
    | some key =>
      rw [hk] at hs
      have hkey := sortedIds_some hk
      simp only at hs
      cases hf : Map.find s.boundarySegments key with
      | some i =>
        rw [hf] at hs
        simp only [Outcome.state, Option.some.injEq] at hs
        subst hs
        refine ⟨fun vs => ?_, I.sorted, I.nodup, I.numbered, fun vs => by rw [e2]; exact I.ifc vs, I.ifcSorted, I.ifcNodup⟩
        rw [e1, I.bnd]
        constructor
        · exact Or.inl
        · rintro (h1 | h1)
          · exact h1
          · rw [← I.bnd, ← (sort_eq_iff ws vs).2 h1, ← hkey]
            exact Map.find_isSome_iff.1 ⟨i, hf⟩
      | none =>
        rw [hf] at hs
        simp only [Outcome.state, Option.some.injEq] at hs
        subst hs
        have hins : Map.insert s.boundarySegments key s.countBoundarySegments
            = s.boundarySegments ++ [(key, s.countBoundarySegments)] := by unfold Map.insert; rw [hf]
        refine ⟨fun vs => ?_, ?_, Map.nodup_insert I.nodup _ _, ?_, fun vs => by rw [e2]; exact I.ifc vs, I.ifcSorted,
          I.ifcNodup⟩
        · rw [Map.mem_keys_insert, e1, I.bnd, hkey, sort_eq_iff]
          constructor
          · rintro (h1 | h1)
            · exact Or.inl h1
            · exact Or.inr h1.symm
          · rintro (h1 | h1)
            · exact Or.inl h1
            · exact Or.inr h1.symm
        · intro k hk'
          rcases Map.mem_keys_insert.1 hk' with h1 | rfl
          · exact I.sorted k h1
          · rw [hkey, sortIds_idem]
        · simp only [hins]
          rw [List.map_append, I.numbered, List.range_succ]
          rfl
  | insertInterface ws m =>
    have e1 : ∀ vs, CalledBoundary (h ++ [Call.insertInterface ws m]) vs ↔ CalledBoundary h vs := by
      intro vs; rw [(ca vs).1]; simp
    have e2 : ∀ vs, CalledInterface (h ++ [Call.insertInterface ws m]) vs ↔ CalledInterface h vs ∨ ws.Perm vs := by
      intro vs; rw [(ca vs).2]; simp
    simp only [step] at hs
    cases hk : sortedIds s ws with
    | none => rw [hk] at hs; simp [Outcome.state] at hs
    | some key =>
      rw [hk] at hs
      have hkey := sortedIds_some hk
      simp only [Outcome.state, Option.some.injEq] at hs
      subst hs
      refine ⟨fun vs => by rw [e1]; exact I.bnd vs, I.sorted, I.nodup, I.numbered, fun vs => ?_, ?_,
        Map.nodup_insert I.ifcNodup _ _⟩
      · rw [Map.mem_keys_insert, e2, I.ifc, hkey, sort_eq_iff]
        constructor
        · rintro (h1 | h1)
          · exact Or.inl h1
          · exact Or.inr h1.symm
        · rintro (h1 | h1)
          · exact Or.inl h1
          · exact Or.inr h1.symm
      · intro k hk'
        rcases Map.mem_keys_insert.1 hk' with h1 | rfl
        · exact I.ifcSorted k h1
        · rw [hkey, sortIds_idem]
  | insertInterfaceBoundarySegment ws =>
    have e1 : ∀ vs, CalledBoundary (h ++ [Call.insertInterfaceBoundarySegment ws]) vs ↔ CalledBoundary h vs := by
      intro vs; rw [(ca vs).1]; simp
    have e2 : ∀ vs, CalledInterface (h ++ [Call.insertInterfaceBoundarySegment ws]) vs ↔ CalledInterface h vs := by
      intro vs; rw [(ca vs).2]; simp
    have same : s'.boundarySegments = s.boundarySegments ∧ s'.countBoundarySegments = s.countBoundarySegments ∧
        s'.interfaceSegments = s.interfaceSegments := by
      simp only [step] at hs
      cases hk : sortedIds s ws with
      | none => rw [hk] at hs; simp [Outcome.state] at hs
      | some key =>
        rw [hk] at hs
        simp only at hs
        cases hf : Map.find s.boundarySegments key with
        | some i => rw [hf] at hs; simp only [Outcome.state, Option.some.injEq] at hs; subst hs; exact ⟨rfl, rfl, rfl⟩
        | none => rw [hf] at hs; simp only [Outcome.state, Option.some.injEq] at hs; subst hs; exact ⟨rfl, rfl, rfl⟩
    obtain ⟨s1, s2, s3⟩ := same
    exact ⟨fun vs => by rw [e1, s1]; exact I.bnd vs, by rw [s1]; exact I.sorted, by rw [s1]; exact I.nodup,
      by rw [s1, s2]; exact I.numbered, fun vs => by rw [e2, s3]; exact I.ifc vs, by rw [s3]; exact I.ifcSorted,
      by rw [s3]; exact I.ifcNodup⟩

theorem inv_init : Inv [] {} := by
  constructor <;> simp [CalledBoundary, CalledInterface]

theorem run_append (s : State) (h h' : List Call) : run s (h ++ h') = (run s h).bind fun s' => run s' h' := by
  induction h generalizing s with
  | nil => rfl
  | cons c h ih =>
    simp only [List.cons_append, run]
    cases (step s c).state with
    | none => rfl
    | some s1 => simp only [Option.bind_some]; exact ih s1

theorem inv_run {h : List Call} {s : State} (hs : run {} h = some s) : Inv h s := by
  induction h using List.reverseRecOn generalizing s with
  | nil => simp only [run, Option.some.injEq] at hs; subst hs; exact inv_init
  | append_singleton h c ih =>
    rw [run_append] at hs
    cases h1 : run {} h with
    | none => rw [h1] at hs; simp at hs
    | some s1 =>
      rw [h1] at hs
      simp only [Option.bind_some, run] at hs
      refine inv_step (ih h1) c ?_
      cases h2 : (step s1 c).state with
      | none => rw [h2] at hs; simp at hs
      | some s2 => rw [h2] at hs; simpa [run] using hs

/-! ## C15 -/

/-- **C15** `insertBoundarySegment` throws exactly if the same segment, with its vertices in any order, was
inserted before. -/
theorem C15_duplicate_rejected (h : List Call) (s : State) (hs : run {} h = some s) (vs : List Nat)
    (hv : ∀ v ∈ vs, v < s.numVertices) :
    (∃ s', step s (.insertBoundarySegment vs) = .throws s') ↔ CalledBoundary h vs := by
  have I := inv_run hs
  rw [← I.bnd, ← Map.find_isSome_iff]
  have e : sortedIds s vs = some (sortIds vs) := by unfold sortedIds; rw [if_pos hv]
  simp only [step, e]
  cases Map.find s.boundarySegments (sortIds vs) with
  | none => simp
  | some i => simp

/-- The index map before `createGrid`: the segments, each once, numbered `0, 1, …` in order of insertion. -/
theorem C15_numbered (h : List Call) (s : State) (hs : run {} h = some s) :
    (s.boundarySegments.map Prod.fst).Nodup ∧ s.boundarySegments.map Prod.snd = List.range s.boundarySegments.length ∧
    ∀ vs, sortIds vs ∈ s.boundarySegments.map Prod.fst ↔ CalledBoundary h vs := by
  have I := inv_run hs
  refine ⟨I.nodup, ?_, I.bnd⟩
  have hl : s.boundarySegments.length = s.countBoundarySegments := by
    have := congrArg List.length I.numbered
    simpa using this
  rw [hl, I.numbered]

/-! ### separation -/

theorem find_foldl_erase (l : List (Key × Nat)) (b : List (Key × Nat)) (k : Key) :
    Map.find (l.foldl (fun b seg => Map.erase b seg.1) b) k = if k ∈ l.map Prod.fst then none else Map.find b k := by
  induction l generalizing b with
  | nil => simp
  | cons e l ih =>
    rw [List.foldl_cons, ih, Map.find_erase]
    simp only [List.map_cons, List.mem_cons]
    by_cases h1 : k ∈ l.map Prod.fst
    · simp [h1]
    · by_cases h2 : k = e.1
      · simp [h2]
      · simp [h1, h2]

theorem find_removeBoundary (s : State) (bf : List Key) (k : Key) :
    Map.find (removeBoundaryFromInterface s bf) k =
      if k ∈ bf ∧ k ∈ s.boundarySegments.map Prod.fst then none else Map.find s.interfaceSegments k := by
  unfold removeBoundaryFromInterface
  generalize s.interfaceSegments = ifc
  induction bf generalizing ifc with
  | nil => simp
  | cons f bf ih =>
    rw [List.foldl_cons]
    cases hf : Map.find s.boundarySegments f with
    | none =>
      simp only
      rw [ih]
      have : f ∉ s.boundarySegments.map Prod.fst := Map.find_none_iff.1 hf
      by_cases hk : k = f
      · subst hk; simp only [this, and_false, if_false]
      · simp only [List.mem_cons, hk, false_or]
    | some i =>
      simp only
      rw [ih, Map.find_erase]
      have : f ∈ s.boundarySegments.map Prod.fst := Map.find_isSome_iff.1 ⟨i, hf⟩
      by_cases hk : k = f
      · subst hk; simp only [this, and_true, List.mem_cons, true_or, if_true, ite_self]
      · simp only [List.mem_cons, hk, false_or, if_false]

theorem nodup_removeBoundary (s : State) (bf : List Key) (h : (s.interfaceSegments.map Prod.fst).Nodup) :
    ((removeBoundaryFromInterface s bf).map Prod.fst).Nodup := by
  unfold removeBoundaryFromInterface
  generalize s.interfaceSegments = ifc at h
  induction bf generalizing ifc with
  | nil => exact h
  | cons f bf ih =>
    rw [List.foldl_cons]
    cases Map.find s.boundarySegments f with
    | none => exact ih _ h
    | some i => exact ih _ (Map.nodup_erase h f)

/-- The facet with vertices `vs` is a boundary segment of the grid. -/
def IsBoundarySegment (g : Grid) (vs : List Nat) : Prop := sortIds vs ∈ g.boundarySegments.map Prod.fst

/-- The facet with vertices `vs` is an interface segment of the grid (`isInterface` of the facet). -/
def IsInterfaceSegment (g : Grid) (vs : List Nat) : Prop := sortIds vs ∈ g.interfaceSegments.map Prod.fst

/-- The facet with vertices `vs` is one of the given facets (sorted ids) on the boundary of the domain. -/
def OnBoundary (bf : List Key) (vs : List Nat) : Prop := sortIds vs ∈ bf

/-- **C16** After `createGrid`, in terms of the calls made: a facet is an interface segment iff it was inserted as
interface and not as a boundary segment lying on the boundary of the domain; it is a boundary segment iff it was
inserted as boundary segment and it was not inserted as interface or lies on the boundary. -/
theorem C16_characterisation (h : List Call) (s : State) (hs : run {} h = some s) (bf : List Key) (vs : List Nat) :
    (IsInterfaceSegment (createGrid s bf) vs ↔ CalledInterface h vs ∧ ¬ (OnBoundary bf vs ∧ CalledBoundary h vs)) ∧
    (IsBoundarySegment (createGrid s bf) vs ↔ CalledBoundary h vs ∧ (¬ CalledInterface h vs ∨ OnBoundary bf vs)) := by
  have I := inv_run hs
  have hi : IsInterfaceSegment (createGrid s bf) vs ↔ CalledInterface h vs ∧ ¬ (OnBoundary bf vs ∧ CalledBoundary h vs) := by
    unfold IsInterfaceSegment createGrid
    simp only
    rw [← Map.find_isSome_iff, find_removeBoundary, ← I.ifc, ← I.bnd, ← Map.find_isSome_iff (m := s.interfaceSegments)]
    unfold OnBoundary
    by_cases hc : sortIds vs ∈ bf ∧ sortIds vs ∈ s.boundarySegments.map Prod.fst
    · rw [if_pos hc]
      simp [hc]
    · rw [if_neg hc]
      simp only [hc, not_false_eq_true, and_true]
  refine ⟨hi, ?_⟩
  have hb : IsBoundarySegment (createGrid s bf) vs ↔ CalledBoundary h vs ∧ ¬ IsInterfaceSegment (createGrid s bf) vs := by
    unfold IsBoundarySegment IsInterfaceSegment createGrid
    simp only
    rw [← Map.find_isSome_iff, find_foldl_erase, ← I.bnd, ← Map.find_isSome_iff (m := s.boundarySegments)]
    by_cases hc : sortIds vs ∈ (removeBoundaryFromInterface s bf).map Prod.fst
    · rw [if_pos hc]; simp [hc]
    · rw [if_neg hc]; simp only [hc, not_false_eq_true, and_true]
  rw [hb, hi]
  constructor
  · rintro ⟨h1, h2⟩
    refine ⟨h1, ?_⟩
    by_cases h3 : CalledInterface h vs
    · right
      by_contra h4
      exact h2 ⟨h3, fun h5 => h4 h5.1⟩
    · exact Or.inl h3
  · rintro ⟨h1, h2⟩
    refine ⟨h1, ?_⟩
    rintro ⟨h3, h4⟩
    rcases h2 with h2 | h2
    · exact h2 h3
    · exact h4 ⟨h2, h1⟩

/-- **C16** No facet is both, and the facets inserted as both are sorted out by their position. -/
theorem C16_separated (h : List Call) (s : State) (hs : run {} h = some s) (bf : List Key) (vs : List Nat) :
    ¬ (IsInterfaceSegment (createGrid s bf) vs ∧ IsBoundarySegment (createGrid s bf) vs) ∧
    (CalledInterface h vs → CalledBoundary h vs →
      (IsBoundarySegment (createGrid s bf) vs ↔ OnBoundary bf vs) ∧
      (IsInterfaceSegment (createGrid s bf) vs ↔ ¬ OnBoundary bf vs)) := by
  obtain ⟨h1, h2⟩ := C16_characterisation h s hs bf vs
  rw [h1, h2]
  refine ⟨?_, ?_⟩
  · rintro ⟨⟨a, b⟩, c, d⟩
    rcases d with d | d
    · exact d a
    · exact b ⟨d, c⟩
  · intro a c
    constructor
    · constructor
      · rintro ⟨-, d | d⟩
        · exact absurd a d
        · exact d
      · intro d; exact ⟨c, Or.inr d⟩
    · constructor
      · rintro ⟨-, b⟩ d; exact b ⟨d, c⟩
      · intro d; exact ⟨a, fun e => d e.1⟩

/-- **C16** The interface vertices are exactly the vertices of the interface segments. -/
theorem C16_vertices (h : List Call) (s : State) (hs : run {} h = some s) (bf : List Key) (v : Nat) :
    (createGrid s bf).isInterface v = true ↔ ∃ seg, IsInterfaceSegment (createGrid s bf) seg ∧ v ∈ seg := by
  have I := inv_run hs
  have hsub : ∀ k ∈ (removeBoundaryFromInterface s bf).map Prod.fst, sortIds k = k := by
    intro k hk
    obtain ⟨x, hx⟩ := Map.find_isSome_iff.2 hk
    rw [find_removeBoundary] at hx
    split at hx
    · exact absurd hx (by simp)
    · exact I.ifcSorted k (Map.find_isSome_iff.1 ⟨x, hx⟩)
  unfold IsInterfaceSegment createGrid
  simp only [List.any_eq_true, List.contains_iff_mem]
  constructor
  · rintro ⟨⟨k, m⟩, hk, hv⟩
    refine ⟨k, ?_, hv⟩
    have hk' : k ∈ (removeBoundaryFromInterface s bf).map Prod.fst := List.mem_map.2 ⟨(k, m), hk, rfl⟩
    rw [hsub k hk']
    exact hk'
  · rintro ⟨seg, hk, hv⟩
    obtain ⟨⟨k, m⟩, h1, h2⟩ := List.mem_map.1 hk
    refine ⟨(k, m), h1, ?_⟩
    simp only at h2
    rw [h2]
    exact (sortIds_perm seg).mem_iff.2 hv

/-- The marker given by the first call of `insertInterface` for a segment. -/
def firstMarker (seg : List Nat) : List Call → Option Nat
  | [] => none
  | .insertInterface vs m :: h => if vs.Perm seg then some m else firstMarker seg h
  | _ :: h => firstMarker seg h

/-- **C16** The marker of an interface segment is the one given by the first call for this segment. -/
theorem C16_marker (h : List Call) (s : State) (hs : run {} h = some s) (bf : List Key) (vs : List Nat)
    (hi : IsInterfaceSegment (createGrid s bf) vs) :
    Map.find (createGrid s bf).interfaceSegments (sortIds vs) = firstMarker vs h := by
  have hfind : Map.find (createGrid s bf).interfaceSegments (sortIds vs) = Map.find s.interfaceSegments (sortIds vs) := by
    unfold IsInterfaceSegment createGrid at hi
    unfold createGrid
    simp only at hi ⊢
    obtain ⟨x, hx⟩ := Map.find_isSome_iff.2 hi
    rw [hx]
    rw [find_removeBoundary] at hx
    split at hx
    · exact absurd hx (by simp)
    · exact hx.symm
  rw [hfind]
  have gen : ∀ (h : List Call) (s0 s : State), run s0 h = some s →
      Map.find s.interfaceSegments (sortIds vs) = (Map.find s0.interfaceSegments (sortIds vs)).or (firstMarker vs h) := by
    intro h
    induction h with
    | nil => intro s0 s hs; simp only [run, Option.some.injEq] at hs; subst hs; simp [firstMarker]
    | cons c h ih =>
      intro s0 s hs
      simp only [run] at hs
      cases h2 : (step s0 c).state with
      | none => rw [h2] at hs; simp at hs
      | some s1 =>
        rw [h2] at hs
        simp only [Option.bind_some] at hs
        rw [ih s1 s hs]
        cases c with
        | insertVertex =>
          simp only [step, Outcome.state, Option.some.injEq] at h2
          subst h2; rfl
        | insertBoundarySegment ws =>
          simp only [step] at h2
          cases hk : sortedIds s0 ws with
          | none => rw [hk] at h2; simp [Outcome.state] at h2
          | some k =>
            rw [hk] at h2
            simp only at h2
            cases hf : Map.find s0.boundarySegments k with
            | none => rw [hf] at h2; simp only [Outcome.state, Option.some.injEq] at h2; subst h2; rfl
            | some i => rw [hf] at h2; simp only [Outcome.state, Option.some.injEq] at h2; subst h2; rfl
        | insertInterfaceBoundarySegment ws =>
          simp only [step] at h2
          cases hk : sortedIds s0 ws with
          | none => rw [hk] at h2; simp [Outcome.state] at h2
          | some k =>
            rw [hk] at h2
            simp only at h2
            cases hf : Map.find s0.boundarySegments k with
            | none => rw [hf] at h2; simp only [Outcome.state, Option.some.injEq] at h2; subst h2; rfl
            | some i => rw [hf] at h2; simp only [Outcome.state, Option.some.injEq] at h2; subst h2; rfl
        | insertInterface ws m =>
          simp only [step] at h2
          cases hk : sortedIds s0 ws with
          | none => rw [hk] at h2; simp [Outcome.state] at h2
          | some k =>
            have hkey := sortedIds_some hk
            rw [hk] at h2
            simp only [Outcome.state, Option.some.injEq] at h2
            subst h2
            simp only [firstMarker]
            by_cases hp : ws.Perm vs
            · rw [if_pos hp]
              have e : k = sortIds vs := hkey.trans ((sort_eq_iff ws vs).2 hp)
              subst e
              cases hf : Map.find s0.interfaceSegments (sortIds vs) with
              | none => rw [Map.find_insert_new hf, if_pos rfl]; rfl
              | some y => rw [Map.insert_old hf, hf]; rfl
            · rw [if_neg hp]
              have e : sortIds vs ≠ k := fun e => hp ((sort_eq_iff ws vs).1 (hkey.symm.trans e.symm))
              rw [Map.find_insert_ne e]
  rw [gen h {} s hs]
  simp

/-- **C15** After `createGrid`, different boundary segments have different indices. -/
theorem C15_distinct (h : List Call) (s : State) (hs : run {} h = some s) (bf : List Key) (vs ws : List Nat)
    (h1 : IsBoundarySegment (createGrid s bf) vs) (h2 : IsBoundarySegment (createGrid s bf) ws)
    (heq : boundarySegmentIndex (createGrid s bf) vs = boundarySegmentIndex (createGrid s bf) ws) : vs.Perm ws := by
  have I := inv_run hs
  unfold IsBoundarySegment at h1 h2
  obtain ⟨i, hi⟩ := Map.find_isSome_iff.2 h1
  obtain ⟨j, hj⟩ := Map.find_isSome_iff.2 h2
  unfold boundarySegmentIndex at heq
  rw [hi, hj] at heq
  simp only at heq
  subst heq
  unfold createGrid at hi hj
  simp only [find_foldl_erase] at hi hj
  split at hi
  · exact absurd hi (by simp)
  split at hj
  · exact absurd hj (by simp)
  have m1 := Map.mem_of_find hi
  have m2 := Map.mem_of_find hj
  have hnd2 : (s.boundarySegments.map Prod.snd).Nodup := by rw [I.numbered]; exact List.nodup_range
  have := List.inj_on_of_nodup_map hnd2 m1 m2 rfl
  exact (sort_eq_iff vs ws).1 (Prod.mk.inj this).1

/-- **C103** (part) If no facet inside the domain was inserted both as interface and as boundary segment, the
indices of the boundary segments are exactly `0, …, numBoundarySegments() - 1`. What is missing from C103: without
that hypothesis the numbering has gaps, see `C103_gap_false`. -/
theorem C103_consecutive_partial (h : List Call) (s : State) (hs : run {} h = some s) (bf : List Key)
    (hno : ∀ vs, CalledInterface h vs → CalledBoundary h vs → OnBoundary bf vs) (i : Nat) :
    i < numBoundarySegments (createGrid s bf) ↔
      ∃ vs, IsBoundarySegment (createGrid s bf) vs ∧ boundarySegmentIndex (createGrid s bf) vs = i := by
  have I := inv_run hs
  -- nothing is erased
  have hsame : ∀ l : List (Key × Nat), (∀ e ∈ l, e.1 ∉ s.boundarySegments.map Prod.fst) →
      l.foldl (fun b seg => Map.erase b seg.1) s.boundarySegments = s.boundarySegments := by
    intro l
    induction l with
    | nil => intro _; rfl
    | cons e l ih =>
      intro hl
      rw [List.foldl_cons]
      have : Map.erase s.boundarySegments e.1 = s.boundarySegments := by
        unfold Map.erase
        rw [List.filter_eq_self]
        intro a ha
        simp only [ne_eq, decide_eq_true_eq]
        rintro hae
        exact hl e (List.mem_cons_self ..) (hae ▸ List.mem_map_of_mem ha)
      rw [this]
      exact ih (fun e he => hl e (List.mem_cons_of_mem _ he))
  have hb : (createGrid s bf).boundarySegments = s.boundarySegments := by
    unfold createGrid
    simp only
    apply hsame
    rintro ⟨k, m⟩ hk hkb
    have hkb' : k ∈ s.boundarySegments.map Prod.fst := hkb
    have hc := I.sorted k hkb'
    have hk' : k ∈ (removeBoundaryFromInterface s bf).map Prod.fst := List.mem_map.2 ⟨(k, m), hk, rfl⟩
    have hint : IsInterfaceSegment (createGrid s bf) k := by
      unfold IsInterfaceSegment createGrid
      rw [hc]; exact hk'
    have hcb : CalledBoundary h k := (I.bnd k).1 (by rw [hc]; exact hkb')
    have := ((C16_characterisation h s hs bf k).1.1 hint)
    exact this.2 ⟨hno k this.1 hcb, hcb⟩
  have hl : s.boundarySegments.length = s.countBoundarySegments := by
    have := congrArg List.length I.numbered
    simpa using this
  unfold numBoundarySegments IsBoundarySegment boundarySegmentIndex
  rw [hb, hl]
  constructor
  · intro hi
    have : i ∈ s.boundarySegments.map Prod.snd := by rw [I.numbered]; exact List.mem_range.2 hi
    obtain ⟨⟨k, j⟩, hm, rfl⟩ := List.mem_map.1 this
    have hk : k ∈ s.boundarySegments.map Prod.fst := List.mem_map.2 ⟨_, hm, rfl⟩
    refine ⟨k, ?_, ?_⟩
    · rw [I.sorted k hk]; exact hk
    · rw [I.sorted k hk, Map.find_of_mem I.nodup hm]
  · rintro ⟨vs, hvs, rfl⟩
    obtain ⟨x, hx⟩ := Map.find_isSome_iff.2 hvs
    rw [hx]
    have : x ∈ s.boundarySegments.map Prod.snd := List.mem_map.2 ⟨_, Map.mem_of_find hx, rfl⟩
    rw [I.numbered] at this
    exact List.mem_range.1 this

/-- The calls of the gmsh reader (gmshgridfactory.hh:159-162) for a file that lists the interface line (1 3)
before the boundary line (0 1): the only boundary segment of the grid gets the index 1 although
`numBoundarySegments()` is 1. -/
theorem C103_gap_false :
    ∃ s, run {} [.insertVertex, .insertVertex, .insertVertex, .insertVertex,
        .insertInterface [1, 3] 7, .insertBoundarySegment [1, 3],
        .insertInterface [0, 1] 8, .insertBoundarySegment [0, 1]] = some s ∧
      numBoundarySegments (createGrid s [[0, 1], [0, 3], [1, 2], [2, 3]]) = 1 ∧
      boundarySegmentIndex (createGrid s [[0, 1], [0, 3], [1, 2], [2, 3]]) [1, 0] = 1 := by
  refine ⟨_, rfl, ?_, ?_⟩ <;> decide

/-- Non-vacuity of the C15/C16 theorems: the history above; facet (1 3) is an interface segment, facet (0 1) a
boundary segment, and the vertices 1 and 3 are the interface vertices. -/
example : ∃ s, run {} [.insertVertex, .insertVertex, .insertVertex, .insertVertex,
        .insertInterface [1, 3] 7, .insertBoundarySegment [1, 3],
        .insertInterface [0, 1] 8, .insertBoundarySegment [0, 1]] = some s ∧
      ((createGrid s [[0, 1], [0, 3], [1, 2], [2, 3]]).interfaceSegments = [([1, 3], 7)]) ∧
      ((createGrid s [[0, 1], [0, 3], [1, 2], [2, 3]]).boundarySegments = [([0, 1], 1)]) ∧
      (createGrid s [[0, 1], [0, 3], [1, 2], [2, 3]]).isInterface 3 = true ∧
      (createGrid s [[0, 1], [0, 3], [1, 2], [2, 3]]).isInterface 0 = false := by
  refine ⟨_, rfl, ?_, ?_, ?_, ?_⟩ <;> decide

/-! ## C17 -/

/-- **C17** is false: inserting the interface boundary segment (3) twice is accepted, and the next segment gets
the number 2, so the two segments are numbered 0 and 2. -/
theorem C17_duplicate_false :
    ∃ s, run {} [.insertVertex, .insertVertex, .insertVertex, .insertVertex,
        .insertInterfaceBoundarySegment [3], .insertInterfaceBoundarySegment [3],
        .insertInterfaceBoundarySegment [1]] = some s ∧
      s.interfaceBoundarySegments = [([3], 0), ([1], 2)] ∧ s.countInterfaceBoundarySegments = 3 := by
  refine ⟨_, rfl, ?_, ?_⟩ <;> decide

/-- Calls in a grid of dimension `dim` (the assertions of the factory, explicitgridfactory.hh:269, 292). -/
def Call.ofDim (dim : Nat) : Call → Prop
  | .insertVertex => True
  | .insertBoundarySegment vs => vs.length = dim
  | .insertInterface vs _ => vs.length = dim
  | .insertInterfaceBoundarySegment vs => vs.length + 1 = dim

/-- No call of `insertInterfaceBoundarySegment` is ever rejected. -/
theorem C17_never_rejected (dim : Nat) (h : List Call) (hd : ∀ c ∈ h, c.ofDim dim) (s : State) (hs : run {} h = some s)
    (vs : List Nat) (hl : vs.length + 1 = dim) (s' : State) : step s (.insertInterfaceBoundarySegment vs) ≠ .throws s' := by
  have I := inv_run hs
  simp only [step]
  cases hk : sortedIds s vs with
  | none => simp
  | some key =>
    simp only
    cases hf : Map.find s.boundarySegments key with
    | none => simp
    | some i =>
      exfalso
      have hkey := sortedIds_some hk
      have : sortIds vs ∈ s.boundarySegments.map Prod.fst := hkey ▸ Map.find_isSome_iff.1 ⟨i, hf⟩
      obtain ⟨ws, hws, hp⟩ := (I.bnd vs).1 this
      have h1 := hd _ hws
      simp only [Call.ofDim] at h1
      have := hp.length_eq
      omega

/-- The calls of `insertInterfaceBoundarySegment` in a history, as sorted ids. -/
def ibsCalls (h : List Call) : List Key := h.filterMap fun
  | .insertInterfaceBoundarySegment vs => some (sortIds vs)
  | _ => none

/-- **C17** (part) If no interface boundary segment is inserted twice, they are numbered consecutively in order of
insertion. What is missing: duplicates are not rejected (`C17_duplicate_false`, `C17_never_rejected`). -/
theorem C17_numbered_partial (dim : Nat) (h : List Call) (hd : ∀ c ∈ h, c.ofDim dim) (s : State) (hs : run {} h = some s)
    (hnd : (ibsCalls h).Nodup) :
    s.interfaceBoundarySegments = (ibsCalls h).zip (List.range (ibsCalls h).length) := by
  have key : s.interfaceBoundarySegments = (ibsCalls h).zip (List.range (ibsCalls h).length) ∧
      s.countInterfaceBoundarySegments = (ibsCalls h).length := by
    induction h using List.reverseRecOn generalizing s with
    | nil => simp only [run, Option.some.injEq] at hs; subst hs; exact ⟨rfl, rfl⟩
    | append_singleton h c ih =>
      have hsplit : ibsCalls (h ++ [c]) = ibsCalls h ++ ibsCalls [c] := List.filterMap_append
      rw [hsplit] at hnd
      have hnd1 := (List.nodup_append.1 hnd).1
      rw [run_append] at hs
      cases h1 : run {} h with
      | none => rw [h1] at hs; simp at hs
      | some s1 =>
        rw [h1] at hs
        simp only [Option.bind_some, run] at hs
        have hst : (step s1 c).state = some s := by
          cases h2 : (step s1 c).state with
          | none => rw [h2] at hs; simp at hs
          | some s2 => rw [h2] at hs; simpa [run] using hs
        have hd1 : ∀ c' ∈ h, c'.ofDim dim := fun c' hc' => hd c' (List.mem_append_left _ hc')
        obtain ⟨i1, i2⟩ := ih hd1 s1 h1 hnd1
        have I := inv_run h1
        rw [hsplit]
        cases c with
        | insertVertex =>
          simp only [step, Outcome.state, Option.some.injEq] at hst
          subst hst
          have : ibsCalls [Call.insertVertex] = [] := rfl
          rw [this, List.append_nil]; exact ⟨i1, i2⟩
        | insertBoundarySegment ws =>
          have : ibsCalls [Call.insertBoundarySegment ws] = [] := rfl
          rw [this, List.append_nil]
          simp only [step] at hst
          cases hk : sortedIds s1 ws with
          | none => rw [hk] at hst; simp [Outcome.state] at hst
          | some k =>
            rw [hk] at hst
            simp only at hst
            cases hf : Map.find s1.boundarySegments k with
            | none => rw [hf] at hst; simp only [Outcome.state, Option.some.injEq] at hst; subst hst; exact ⟨i1, i2⟩
            | some i => rw [hf] at hst; simp only [Outcome.state, Option.some.injEq] at hst; subst hst; exact ⟨i1, i2⟩
        | insertInterface ws m =>
          have : ibsCalls [Call.insertInterface ws m] = [] := rfl
          rw [this, List.append_nil]
          simp only [step] at hst
          cases hk : sortedIds s1 ws with
          | none => rw [hk] at hst; simp [Outcome.state] at hst
          | some k => rw [hk] at hst; simp only [Outcome.state, Option.some.injEq] at hst; subst hst; exact ⟨i1, i2⟩
        | insertInterfaceBoundarySegment ws =>
          have hc : ibsCalls [Call.insertInterfaceBoundarySegment ws] = [sortIds ws] := rfl
          rw [hc]
          rw [hc] at hnd
          have hnew : sortIds ws ∉ ibsCalls h := fun hm => (List.nodup_append.1 hnd).2.2 _ hm _ (by simp) rfl
          have hl := hd _ (List.mem_append_right h (List.mem_cons_self ..))
          have hnr := C17_never_rejected dim h hd1 s1 h1 ws hl
          simp only [step] at hst hnr
          cases hk : sortedIds s1 ws with
          | none => rw [hk] at hst; simp [Outcome.state] at hst
          | some k =>
            rw [hk] at hst hnr
            have hkey := sortedIds_some hk
            simp only at hst hnr
            cases hf : Map.find s1.boundarySegments k with
            | some i => rw [hf] at hnr; exact absurd rfl (hnr s1)
            | none =>
              rw [hf] at hst
              simp only [Outcome.state, Option.some.injEq] at hst
              subst hst
              have hnone : Map.find s1.interfaceBoundarySegments k = none := by
                rw [Map.find_none_iff, i1]
                intro hm
                obtain ⟨⟨a, b⟩, hab, rfl⟩ := List.mem_map.1 hm
                have := (List.of_mem_zip hab).1
                simp only at hkey
                exact hnew (hkey ▸ this)
              simp only
              refine ⟨?_, by rw [i2]; simp⟩
              unfold Map.insert
              rw [hnone]
              simp only
              rw [i1, i2, hkey, List.length_append, List.length_cons, List.length_nil, List.range_succ,
                List.zip_append (by simp)]
              rfl
  exact key.1

/-- Non-vacuity: two different interface boundary segments. -/
example : (ibsCalls [.insertVertex, .insertInterfaceBoundarySegment [3], .insertInterfaceBoundarySegment [1]]).Nodup := by
  decide

end Verif.Segments
