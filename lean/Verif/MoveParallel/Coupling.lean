import Verif.MoveParallel.Props
import Verif.InterfaceIndexSet.Props

/-!
# C217, C218: bulk and interface functions on several processes
-/

namespace Verif.MoveParallel

open Verif Parallel PartIter

/-- The mesh with the vertices of the interface elements, in the order of the slots of the host, and the vertices of the elements. (Models: interface/indexsets.hh:250-259, 301-312;
grid/entity.hh: `subEntity`.) -/
structure Full extends Net where
  everts : Nat → List Nat
  corners : Nat → List Nat

/-- The index set of the interface grid on process `p`: `update` visits the interface elements that are present (interface/indexsets.hh:239-277, 287-338). `d` is the dimension of the world. -/
def indexSet (n : Full) (d p : Nat) : Option InterfaceIndexSet.State :=
  InterfaceIndexSet.update d ((items (compute n.mesh p).ipart .all n.mesh.ielems).map n.everts)

/-- Outcome of an evaluation. (Models: `DUNE_THROW`, interface/indexsets.hh:136, and reading beyond the end of a vector.) -/
inductive Out (α : Type)
  | value (a : α)
  | exception
  | undefined
  deriving DecidableEq

variable {P : Type}

/-- `shifts[iindexSet.index(vertex)]` (python/dune/mmesh/_utility.py:224, 281; interface/indexsets.hh:128-141). -/
def shiftAt (n : Full) (d p : Nat) (shifts : List P) (v : Nat) : Out P :=
  match indexSet n d p with
  | none => .exception
  | some s =>
    match InterfaceIndexSet.indexVertex s v with
    | none => .exception
    | some i =>
      match shifts[i]? with
      | none => .undefined
      | some x => .value x

/-- The shifts of a list of vertices, as a loop that ends with the first failure. (Models: python/dune/mmesh/_utility.py:217-226, 278-282.) -/
def collect (f : Nat → Out P) : List Nat → Out (List P)
  | [] => .value []
  | v :: vs =>
    match f v with
    | .value x =>
      match collect f vs with
      | .value xs => .value (x :: xs)
      | .exception => .exception
      | .undefined => .undefined
    | .exception => .exception
    | .undefined => .undefined

/-- The shifts of the corners in `edgeMovement` (python/dune/mmesh/_utility.py:216-226): zero for vertices that are not on the interface. -/
def edgeMovement [Zero P] (n : Full) (d p : Nat) (shifts : List P) (c : Nat) : Out (List P) :=
  collect (fun v => if n.istar v = [] then .value 0 else shiftAt n d p shifts v) (n.corners c)

/-- The shifts of the corners in `interfaceEdgeMovement` (python/dune/mmesh/_utility.py:277-282). -/
def interfaceEdgeMovement (n : Full) (d p : Nat) (shifts : List P) (e : Nat) : Out (List P) := collect (shiftAt n d p shifts) (n.everts e)

/-! ## Specification -/

/-- Valid meshes with their vertices: interface elements have `d` different vertices and differ in their vertices, and the stars are the stars. -/
structure Full.Ok (n : Full) (d : Nat) : Prop where
  net : MoveParallel.Ok n.toNet
  dim : d = 2 ∨ d = 3
  nodup : n.mesh.ielems.Nodup
  length : ∀ e ∈ n.mesh.ielems, (n.everts e).length = d
  distinct : ∀ e ∈ n.mesh.ielems, (n.everts e).Nodup
  differ : ∀ e ∈ n.mesh.ielems, ∀ e' ∈ n.mesh.ielems, (n.everts e).Perm (n.everts e') → e = e'
  istar : ∀ v, ∀ e, e ∈ n.istar v ↔ e ∈ n.mesh.ielems ∧ v ∈ n.everts e
  star : ∀ v, ∀ c, c ∈ n.star v ↔ c ∈ n.mesh.cells ∧ v ∈ n.corners c

/-- The vector has an entry for each vertex of the interface grid of the process: `shifts.size() == igrid.size(dim)`. -/
def Fits (n : Full) (d p : Nat) (shifts : List P) : Prop := ∃ s, indexSet n d p = some s ∧ s.vertexCount = shifts.length

/-! ## Proofs -/

theorem mem_present {n : Full} {d : Nat} (h : n.Ok d) {p e : Nat} : e ∈ items (compute n.mesh p).ipart .all n.mesh.ielems ↔ e ∈ n.mesh.ielems ∧ HasInterface n.toNet p e := by
  rw [mem_items]
  refine and_congr_right fun he => ?_
  unfold HasInterface
  rcases ipart_cases h.net.wf p he with h' | h' | h'
  · rw [h'.1]
    exact ⟨fun _ => Or.inl h'.2, fun _ => by decide⟩
  · rw [h'.1]
    exact ⟨fun _ => Or.inr h'.2, fun _ => by decide⟩
  · rw [h'.1, contains_absent]
    exact ⟨fun h => absurd h (by simp), fun h => absurd h (by tauto)⟩

theorem elements_ok {n : Full} {d : Nat} (h : n.Ok d) (p : Nat) :
    InterfaceIndexSet.Elements d ((items (compute n.mesh p).ipart .all n.mesh.ielems).map n.everts) where
  length := by
    intro e he
    obtain ⟨a, ha, rfl⟩ := List.mem_map.1 he
    exact h.length a ((mem_present h).1 ha).1
  nodup := by
    intro e he
    obtain ⟨a, ha, rfl⟩ := List.mem_map.1 he
    exact h.distinct a ((mem_present h).1 ha).1
  distinct := by
    rw [List.pairwise_map]
    refine (List.Pairwise.and_mem.1 (items_nodup h.nodup : (items (compute n.mesh p).ipart .all n.mesh.ielems).Nodup)).imp ?_
    rintro a b ⟨ha, hb, hne⟩ hp
    exact hne (h.differ a ((mem_present h).1 ha).1 b ((mem_present h).1 hb).1 hp)

/-- A vertex has an index exactly on the processes that have one of its interface elements. -/
theorem index_spec {n : Full} {d : Nat} (h : n.Ok d) (p : Nat) : ∃ s, indexSet n d p = some s ∧
    (∀ v, (∃ e ∈ n.istar v, HasInterface n.toNet p e) → ∃ i < s.vertexCount, InterfaceIndexSet.indexVertex s v = some i) ∧
    (∀ v, (∀ e ∈ n.istar v, ¬ HasInterface n.toNet p e) → InterfaceIndexSet.indexVertex s v = none) ∧
    ∀ v w i, InterfaceIndexSet.indexVertex s v = some i → InterfaceIndexSet.indexVertex s w = some i → v = w := by
  obtain ⟨s, hs, -⟩ := InterfaceIndexSet.C22_elements h.dim _ (elements_ok h p)
  obtain ⟨⟨n1, -, n3⟩, hn⟩ := InterfaceIndexSet.C22_vertices h.dim _ (elements_ok h p) hs
  have mem : ∀ v, v ∈ {v | ∃ e ∈ (items (compute n.mesh p).ipart .all n.mesh.ielems).map n.everts, v ∈ e} ↔ ∃ e ∈ n.istar v, HasInterface n.toNet p e := by
    intro v
    simp only [Set.mem_ofPred_eq, List.mem_map]
    constructor
    · rintro ⟨_, ⟨e, he, rfl⟩, hv⟩
      obtain ⟨h1, h2⟩ := (mem_present h).1 he
      exact ⟨e, (h.istar v e).2 ⟨h1, hv⟩, h2⟩
    · rintro ⟨e, he, h2⟩
      obtain ⟨h1, hv⟩ := (h.istar v e).1 he
      exact ⟨_, ⟨e, (mem_present h).2 ⟨h1, h2⟩, rfl⟩, hv⟩
  have absent : ∀ v, (∀ e ∈ n.istar v, ¬ HasInterface n.toNet p e) → InterfaceIndexSet.indexVertex s v = none := by
    intro v hv
    refine hn v fun e he hve => ?_
    obtain ⟨e', he', hp⟩ := (mem v).1 ⟨e, he, hve⟩
    exact hv e' he' hp
  refine ⟨s, hs, fun v hv => n1 v ((mem v).2 hv), absent, fun v w i hv hw => ?_⟩
  have key : ∀ x, InterfaceIndexSet.indexVertex s x = some i → ∃ e ∈ n.istar x, HasInterface n.toNet p e := by
    intro x hx
    by_contra hc
    push Not at hc
    rw [absent x hc] at hx
    cases hx
  exact n3 v ((mem v).2 (key v hv)) w ((mem w).2 (key w hw)) (hv.trans hw.symm)

theorem collect_value {f : Nat → Out P} {g : Nat → P} : ∀ {l : List Nat}, (∀ v ∈ l, f v = .value (g v)) → collect f l = .value (l.map g)
  | [], _ => rfl
  | v :: vs, h => by
    rw [collect, h v (by simp)]
    simp only
    rw [collect_value (l := vs) fun w hw => h w (by simp [hw])]
    rfl

/-- **C217** The elements on both sides of an interface element that a process owns are there: their values (and the traces of a bulk function) can be computed. -/
theorem C217_traces {n : Net} (h : Ok n) {p e : Nat} (he : e ∈ n.mesh.ielems) (hp : n.mesh.rank (n.mesh.ins e) = p) :
    Has n p (n.mesh.ins e) ∧ ∀ o, n.mesh.out e = some o → Has n p o := by
  refine ⟨Or.inl hp, fun o ho => ?_⟩
  by_cases hr : n.mesh.rank o = p
  · exact Or.inl hr
  · have := h.wf.sides e he o ho
    exact Or.inr ⟨hr, Or.inl ⟨n.mesh.ins e, Or.symm this, hp⟩⟩

/-- **C217** The same for the interface elements that are ghosts because they meet an interface element of the process. -/
theorem C217_ghost_traces {n : Net} {p e : Nat} (he : e ∈ n.mesh.ielems) (hp : n.mesh.rank (n.mesh.ins e) ≠ p) (hm : n.mesh.Meets e p) :
    Has n p (n.mesh.ins e) ∧ ∀ o, n.mesh.out e = some o → Has n p o := by
  refine ⟨Or.inr ⟨hp, Or.inr ⟨e, he, hp, hm, Or.inl rfl⟩⟩, fun o ho => ?_⟩
  by_cases hr : n.mesh.rank o = p
  · exact Or.inl hr
  · exact Or.inr ⟨hr, Or.inr ⟨e, he, hp, hm, Or.inr ho⟩⟩

/-- **C217** The interface elements on the facets of an element that a process owns are there: skeleton functions can be computed. -/
theorem C217_skeleton {n : Net} {p c e : Nat} (hc : n.mesh.rank c = p) (hs : n.mesh.ins e = c ∨ n.mesh.out e = some c) : HasInterface n p e := by
  rcases hs with rfl | hs
  · exact Or.inl hc
  · by_cases hr : n.mesh.rank (n.mesh.ins e) = p
    · exact Or.inl hr
    · exact Or.inr ⟨hr, Or.inl ⟨c, hs, hc⟩⟩

/-- Vertices with an interface element on the process get their entry. -/
theorem shiftAt_value {n : Full} {d : Nat} (h : n.Ok d) {p : Nat} {shifts : List P} (hs : Fits n d p shifts) [Zero P] :
    ∃ idx : Nat → Nat, (∀ v, (∃ e ∈ n.istar v, HasInterface n.toNet p e) → idx v < shifts.length ∧ shiftAt n d p shifts v = .value (shifts.getD (idx v) 0)) ∧
      ∀ v w, (∃ e ∈ n.istar v, HasInterface n.toNet p e) → (∃ e ∈ n.istar w, HasInterface n.toNet p e) → idx v = idx w → v = w := by
  obtain ⟨s, h1, h2, -, h4⟩ := index_spec h p
  obtain ⟨s', h1', h5⟩ := hs
  rw [h1] at h1'
  cases h1'
  refine ⟨fun v => (InterfaceIndexSet.indexVertex s v).getD 0, fun v hv => ?_, fun v w hv hw hi => ?_⟩
  · obtain ⟨i, hi, hidx⟩ := h2 v hv
    have hi' : i < shifts.length := by omega
    unfold shiftAt
    rw [h1]
    simp only [hidx, Option.getD_some]
    refine ⟨hi', ?_⟩
    simp [List.getD, List.getElem?_eq_getElem hi']
  · obtain ⟨i, -, h6⟩ := h2 v hv
    obtain ⟨j, -, h7⟩ := h2 w hw
    simp only [h6, h7, Option.getD_some] at hi
    subst hi
    exact h4 v w i h6 h7

/-- **C217** `interfaceEdgeMovement` and `edgeMovement` with a vector of the size of the interface grid of the process: each vertex of the interface grid has its own entry; each
interface element gets the entries of its vertices; so does each element whose interface vertices belong to the interface grid of the process, with zero for the other vertices. -/
theorem C217_movement {n : Full} {d : Nat} (h : n.Ok d) {p : Nat} {shifts : List P} (hs : Fits n d p shifts) [Zero P] :
    ∃ idx : Nat → Nat,
      (∀ v w, (∃ e ∈ n.istar v, HasInterface n.toNet p e) → (∃ e ∈ n.istar w, HasInterface n.toNet p e) → idx v = idx w → v = w) ∧
      (∀ v, (∃ e ∈ n.istar v, HasInterface n.toNet p e) → idx v < shifts.length) ∧
      (∀ e ∈ n.mesh.ielems, HasInterface n.toNet p e → interfaceEdgeMovement n d p shifts e = .value ((n.everts e).map fun v => shifts.getD (idx v) 0)) ∧
      ∀ c, (∀ v ∈ n.corners c, n.istar v ≠ [] → ∃ e ∈ n.istar v, HasInterface n.toNet p e) →
        edgeMovement n d p shifts c = .value ((n.corners c).map fun v => if n.istar v = [] then 0 else shifts.getD (idx v) 0) := by
  obtain ⟨idx, h1, h2⟩ := shiftAt_value h hs
  refine ⟨idx, h2, fun v hv => (h1 v hv).1, fun e he hp => collect_value fun v hv => (h1 v ⟨e, (h.istar v e).2 ⟨he, hv⟩, hp⟩).2, fun c hc => ?_⟩
  unfold edgeMovement
  refine collect_value fun v hv => ?_
  by_cases hi : n.istar v = []
  · rw [if_pos hi, if_pos hi]
  · rw [if_neg hi, if_neg hi]
    exact (h1 v (hc v hv hi)).2

theorem collect_exception {f : Nat → Out P} : ∀ {l : List Nat}, (∀ v ∈ l, f v ≠ .undefined) → (∃ v ∈ l, f v = .exception) → collect f l = .exception
  | [], _, h => by simp at h
  | v :: vs, h1, h2 => by
    unfold collect
    split
    · rename_i x hx
      rw [collect_exception (l := vs) (fun w hw => h1 w (by simp [hw]))]
      obtain ⟨w, hw, he⟩ := h2
      rcases List.mem_cons.1 hw with rfl | hw
      · rw [he] at hx
        cases hx
      · exact ⟨w, hw, he⟩
    · rfl
    · rename_i hx
      exact absurd hx (h1 v (by simp))

/-- **C218** In general: `edgeMovement` ends with an exception on each element with an interface vertex that is not in the interface grid of the process. -/
theorem C218_exception_partial {n : Full} {d : Nat} (h : n.Ok d) {p : Nat} {shifts : List P} (hs : Fits n d p shifts) [Zero P] {c v : Nat} (hv : v ∈ n.corners c)
    (hi : n.istar v ≠ []) (hn : ∀ e ∈ n.istar v, ¬ HasInterface n.toNet p e) : edgeMovement n d p shifts c = .exception := by
  obtain ⟨idx, h1, -⟩ := shiftAt_value h hs
  obtain ⟨s, h3, -, h4, -⟩ := index_spec h p
  have exc : ∀ w, (∀ e ∈ n.istar w, ¬ HasInterface n.toNet p e) → shiftAt n d p shifts w = .exception := by
    intro w hw
    unfold shiftAt
    rw [h3]
    simp only [h4 w hw]
  unfold edgeMovement
  refine collect_exception (fun w _ => ?_) ⟨v, hv, by rw [if_neg hi]; exact exc v hn⟩
  by_cases hw : n.istar w = []
  · rw [if_pos hw]
    simp
  · rw [if_neg hw]
    by_cases hp : ∃ e ∈ n.istar w, HasInterface n.toNet p e
    · rw [(h1 w hp).2]
      simp
    · push Not at hp
      rw [exc w hp]
      simp

/-! ## Example -/

/-- The square with a tip in its centre, with all vertices. -/
def fullTip : Full where
  toNet := tip
  everts := fun e => if e = 10 then [0, 2] else []
  corners := fun c => if c = 0 then [0, 1, 2] else if c = 1 then [0, 2, 3] else if c = 2 then [0, 3, 4] else if c = 3 then [0, 4, 1] else []

theorem fullTip_ok : fullTip.Ok 2 where
  net := tip_ok
  dim := Or.inl rfl
  nodup := by decide
  length := by decide
  distinct := by decide
  differ := by decide
  istar := by
    intro v e
    change e ∈ (if v = 0 ∨ v = 2 then [10] else []) ↔ e ∈ [10] ∧ v ∈ (if e = 10 then [0, 2] else [])
    constructor
    · intro h
      split at h
      · rw [List.mem_singleton] at h
        subst h
        simp
        assumption
      · simp at h
    · rintro ⟨h1, h2⟩
      rw [List.mem_singleton] at h1
      subst h1
      simp at h2
      simp [h2]
  star := by
    intro v c
    change c ∈ (if v = 0 then [0, 1, 2, 3] else if v = 1 then [3, 0] else if v = 2 then [0, 1] else if v = 3 then [1, 2] else if v = 4 then [2, 3] else []) ↔
      c ∈ [0, 1, 2, 3] ∧ v ∈ (if c = 0 then [0, 1, 2] else if c = 1 then [0, 2, 3] else if c = 2 then [0, 3, 4] else if c = 3 then [0, 4, 1] else [])
    constructor
    · intro h
      repeat' split at h
      all_goals simp only [List.mem_cons, List.not_mem_nil, or_false] at h
      all_goals subst_vars
      all_goals rcases h with rfl | rfl | rfl | rfl
      all_goals simp
    · rintro ⟨h1, h2⟩
      simp only [List.mem_cons, List.not_mem_nil, or_false] at h1
      rcases h1 with rfl | rfl | rfl | rfl <;> simp at h2 <;> rcases h2 with rfl | rfl | rfl <;> simp

theorem tip_items (p : Nat) : items (compute fullTip.mesh p).ipart .all fullTip.mesh.ielems = [10].filter fun e => contains .all ((compute fullTip.mesh p).ipart e) := by
  rw [items, Iterate.rangeFor_eq_filter]
  rfl

/-- On process 0 there are two interface vertices, on process 1 there is none. -/
theorem tip_fits : Fits fullTip 2 0 [(5 : Int), 7] ∧ Fits fullTip 2 1 ([] : List Int) := by
  constructor
  · unfold Fits indexSet
    rw [tip_items]
    exact ⟨_, rfl, by decide⟩
  · unfold Fits indexSet
    rw [tip_items]
    exact ⟨_, rfl, by decide⟩

example : interfaceEdgeMovement fullTip 2 0 [(5 : Int), 7] 10 = .value [5, 7] ∧ edgeMovement fullTip 2 0 [(5 : Int), 7] 1 = .value [5, 7, 0] := by
  unfold interfaceEdgeMovement edgeMovement shiftAt indexSet
  rw [tip_items]
  decide

example := C217_movement fullTip_ok tip_fits.1

example : (10 : Nat) ∈ fullTip.mesh.ielems ∧ fullTip.mesh.rank (fullTip.mesh.ins 10) = 0 := by decide

/-- **C218** (refuted) "`edgeMovement` has a value on every element that a process owns, if the vector has the size of the interface grid of the process". -/
theorem C218_edgeMovement_false : ¬ ∀ (n : Full) (d : Nat), n.Ok d → ∀ (p : Nat) (shifts : List Int), Fits n d p shifts → ∀ c ∈ n.mesh.cells, n.mesh.rank c = p →
    ∃ l, edgeMovement n d p shifts c = .value l := by
  intro h
  obtain ⟨l, hl⟩ := h fullTip 2 fullTip_ok 1 [] tip_fits.2 2 (by decide) (by decide)
  have : edgeMovement fullTip 2 1 ([] : List Int) 2 = .exception := by
    unfold edgeMovement shiftAt indexSet
    rw [tip_items]
    decide
  rw [this] at hl
  cases hl

example : (0 : Nat) ∈ fullTip.corners 2 ∧ fullTip.istar 0 ≠ [] := by decide

end Verif.MoveParallel
