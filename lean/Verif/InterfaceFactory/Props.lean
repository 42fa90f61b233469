import Verif.InterfaceFactory.Model
import Verif.Factory.SegProps

/-!
# C88: the grid factory of the interface grid
-/

namespace Verif.InterfaceFactory

open Verif RefElem Segments

variable {P : Type} [DecidableEq P]

set_option linter.unusedSectionVars false

/-! ## Specification -/

/-- A grid before the factory is used: all vertices have different ids and different positions, and the vertices of the interface segments are flagged. -/
structure Good (s : State P) : Prop where
  points : (s.verts.map (·.point)).Nodup
  ids : (s.verts.map (·.id)).Nodup
  flags : ∀ k m, Map.find s.interfaceSegments k = some m → ∀ v ∈ s.verts, v.id ∈ k → v.isInterface = true
  fresh : s.vertexIdMap = [] ∧ s.insertionIndexMap = [] ∧ s.countElements = 0

/-- The positions of the vertices named in the calls of a history. -/
def named (verts : List (Vtx P)) : List (Call P) → List (Option P)
  | [] => []
  | .insertVertex p _ :: cs => some p :: named verts cs
  | .addVertexHandle h :: cs => (verts[h]?).map (·.point) :: named verts cs
  | .insertElement _ :: cs => named verts cs

/-- The calls only name vertices that the grid has. -/
def OnlyOld (verts : List (Vtx P)) (calls : List (Call P)) : Prop := ∀ x ∈ named verts calls, ∃ v ∈ verts, x = some v.point

/-- The vertex lists of the inserted elements. -/
def elements : List (Call P) → List (List Nat)
  | [] => []
  | .insertElement vs :: cs => vs :: elements cs
  | _ :: cs => elements cs

/-- The vertices of `facet`, in some order, are those with the numbers `vs`. -/
def IsElement (names : List (Option P)) (facet : List (Vtx P)) (vs : List Nat) : Prop :=
  ∃ us, us.Perm facet ∧ List.Forall₂ (fun v u => names[v]? = some (some (Vtx.point u))) vs us

/-! ## Proofs -/

theorem named_append (verts : List (Vtx P)) (h h' : List (Call P)) : named verts (h ++ h') = named verts h ++ named verts h' := by
  induction h with
  | nil => rfl
  | cons c h ih => cases c <;> simp [named, ih]

theorem elements_append (h h' : List (Call P)) : elements (h ++ h') = elements h ++ elements h' := by
  induction h with
  | nil => rfl
  | cons c h ih => cases c <;> simp [elements, ih]

theorem run_append (s : State P) (h h' : List (Call P)) : run s (h ++ h') = (run s h).bind fun s' => run s' h' := by
  induction h generalizing s with
  | nil => rfl
  | cons c h ih =>
    simp only [List.cons_append, run]
    cases step s c with
    | none => rfl
    | some s1 => simp only [Option.bind_some]; exact ih s1

/-- The key of an inserted element, computed from the ids of the named vertices. -/
def keyOf (idm : List Nat) (vs : List Nat) : Option (List Nat) := (vs.mapM fun v => idm[v]?).map sortIds

structure Inv (s0 : State P) (calls : List (Call P)) (s : State P) : Prop where
  point : s.verts.map (·.point) = s0.verts.map (·.point)
  id : s.verts.map (·.id) = s0.verts.map (·.id)
  flag : ∀ v ∈ s.verts, v.isInterface = true ↔ ((∃ v0 ∈ s0.verts, v0.point = v.point ∧ v0.isInterface = true) ∨ some v.point ∈ named s0.verts calls)
  idm : List.Forall₂ (fun (x : Option P) i => ∃ v ∈ s0.verts, x = some v.point ∧ i = v.id) (named s0.verts calls) s.vertexIdMap
  seg : ∀ k, (Map.find s.interfaceSegments k).isSome ↔ ((Map.find s0.interfaceSegments k).isSome ∨ ∃ vs ∈ elements calls, keyOf s.vertexIdMap vs = some k)
  idx : ∀ (k : List Nat) (i : Nat), Map.find s.insertionIndexMap k = some i ↔ ∃ vs, (elements calls)[i]? = some vs ∧ keyOf s.vertexIdMap vs = some k ∧
    ∀ j ws, j < i → (elements calls)[j]? = some ws → keyOf s.vertexIdMap ws ≠ some k
  count : s.countElements = (elements calls).length
  defined : ∀ vs ∈ elements calls, ∃ k, keyOf s.vertexIdMap vs = some k

theorem mapM_mono (l : List Nat) (m m' : List Nat) (r : List Nat) (h : (l.mapM fun v => m[v]?) = some r) : (l.mapM fun v => (m ++ m')[v]?) = some r := by
  induction l generalizing r with
  | nil => simpa using h
  | cons a l ih =>
    simp only [List.mapM_cons, Option.pure_def, Option.bind_eq_bind] at h ⊢
    cases h1 : m[a]? with
    | none => rw [h1] at h; simp at h
    | some b =>
      rw [h1] at h
      rw [List.getElem?_append_left (List.getElem?_eq_some_iff.1 h1).1, h1]
      simp only [Option.bind_some] at h ⊢
      cases h2 : l.mapM fun v => m[v]? with
      | none => rw [h2] at h; simp at h
      | some bs =>
        rw [h2] at h
        rw [ih bs h2]
        exact h

theorem keyOf_mono {m m' vs k : List Nat} (h : keyOf m vs = some k) : keyOf (m ++ m') vs = some k := by
  unfold keyOf at h ⊢
  obtain ⟨r, h1, h2⟩ := Option.map_eq_some_iff.1 h
  rw [mapM_mono vs m m' r h1]
  exact congrArg some h2

/-- Registering an old vertex. -/
theorem inv_register {s0 : State P} {calls : List (Call P)} {s : State P} (G : Good s0) (I : Inv s0 calls s) (h : Nat) (v : Vtx P) (hv : s.verts[h]? = some v) (c : Call P)
    (hn : named s0.verts [c] = [some v.point]) (he : elements [c] = []) : Inv s0 (calls ++ [c]) (register s s.verts h) := by
  have hreg : register s s.verts h = { s with
      verts := s.verts.modify h fun v => { v with isInterface := true }
      vertexIdMap := s.vertexIdMap ++ [v.id] } := by unfold register; rw [hv]
  have hnm : named s0.verts (calls ++ [c]) = named s0.verts calls ++ [some v.point] := by rw [named_append, hn]
  have hel : elements (calls ++ [c]) = elements calls := by rw [elements_append, he, List.append_nil]
  have hlt := (List.getElem?_eq_some_iff.1 hv).1
  have hmp : (s.verts.modify h fun v => { v with isInterface := true }).map (·.point) = s.verts.map (·.point) := by
    refine List.ext_getElem? fun k => ?_
    rw [List.getElem?_map, List.getElem?_map, List.getElem?_modify]
    by_cases hkh : h = k
    · simp only [hkh, if_true]; cases s.verts[k]? <;> rfl
    · simp only [hkh, if_false]; cases s.verts[k]? <;> rfl
  have hmi : (s.verts.modify h fun v => { v with isInterface := true }).map (·.id) = s.verts.map (·.id) := by
    refine List.ext_getElem? fun k => ?_
    rw [List.getElem?_map, List.getElem?_map, List.getElem?_modify]
    by_cases hkh : h = k
    · simp only [hkh, if_true]; cases s.verts[k]? <;> rfl
    · simp only [hkh, if_false]; cases s.verts[k]? <;> rfl
  have hpn : (s.verts.map (·.point)).Nodup := by rw [I.point]; exact G.points
  -- the vertex of the old grid with the same position and id
  obtain ⟨v0, hv0, hp0, hi0⟩ : ∃ v0 ∈ s0.verts, v0.point = v.point ∧ v0.id = v.id := by
    have hl : s.verts.length = s0.verts.length := by have := congrArg List.length I.point; simpa using this
    have e1 : s0.verts[h]? = some s0.verts[h] := List.getElem?_eq_getElem (hl ▸ hlt)
    refine ⟨s0.verts[h]'(hl ▸ hlt), List.getElem_mem _, ?_, ?_⟩
    · have := congrArg (fun l : List P => l[h]?) I.point
      simp only [List.getElem?_map, hv, e1, Option.map_some, Option.some.injEq] at this
      exact this.symm
    · have := congrArg (fun l : List Nat => l[h]?) I.id
      simp only [List.getElem?_map, hv, e1, Option.map_some, Option.some.injEq] at this
      exact this.symm
  have hkey : ∀ vs ∈ elements calls, ∀ k, keyOf (s.vertexIdMap ++ [v.id]) vs = some k ↔ keyOf s.vertexIdMap vs = some k := by
    intro vs hvs k
    obtain ⟨k', hk'⟩ := I.defined vs hvs
    rw [keyOf_mono hk', hk']
  rw [hreg]
  refine ⟨hmp.trans I.point, hmi.trans I.id, ?_, ?_, ?_, ?_, by rw [hel]; exact I.count, ?_⟩
  · intro u hu
    obtain ⟨k, hk⟩ := List.getElem?_of_mem hu
    rw [List.getElem?_modify] at hk
    rw [hnm, List.mem_append]
    by_cases hkh : h = k
    · subst hkh
      simp only [if_true, hv, Option.map_eq_map, Option.map_some, Option.some.injEq] at hk
      subst hk
      simp
    · simp only [hkh, if_false, Option.map_eq_map, Option.map_eq_some_iff] at hk
      obtain ⟨u', hu', rfl⟩ := hk
      have hne : u'.point ≠ v.point := by
        intro e
        have hkl := (List.getElem?_eq_some_iff.1 hu').1
        refine hkh ((List.Nodup.getElem_inj_iff hpn (hi := by simpa using hlt) (hj := by simpa using hkl)).1 ?_)
        rw [List.getElem_map, List.getElem_map, (List.getElem?_eq_some_iff.1 hu').2, (List.getElem?_eq_some_iff.1 hv).2, e]
      rw [I.flag u' (List.mem_of_getElem? hu')]
      simp [hne]
  · rw [hnm]
    exact List.rel_append I.idm (.cons ⟨v0, hv0, by rw [hp0], hi0.symm⟩ .nil)
  · intro k
    rw [hel]
    refine (I.seg k).trans (or_congr Iff.rfl ?_)
    constructor
    · rintro ⟨vs, h1, h2⟩; exact ⟨vs, h1, (hkey vs h1 k).2 h2⟩
    · rintro ⟨vs, h1, h2⟩; exact ⟨vs, h1, (hkey vs h1 k).1 h2⟩
  · intro k i
    rw [hel]
    refine (I.idx k i).trans ?_
    constructor
    · rintro ⟨vs, h1, h2, h3⟩
      exact ⟨vs, h1, (hkey vs (List.mem_of_getElem? h1) k).2 h2, fun j ws hj hw e => h3 j ws hj hw ((hkey ws (List.mem_of_getElem? hw) k).1 e)⟩
    · rintro ⟨vs, h1, h2, h3⟩
      exact ⟨vs, h1, (hkey vs (List.mem_of_getElem? h1) k).1 h2, fun j ws hj hw e => h3 j ws hj hw ((hkey ws (List.mem_of_getElem? hw) k).2 e)⟩
  · intro vs hvs
    rw [hel] at hvs
    obtain ⟨k, hk⟩ := I.defined vs hvs
    exact ⟨k, keyOf_mono hk⟩

theorem inv_element {s0 : State P} {calls : List (Call P)} {s s' : State P} (I : Inv s0 calls s) (vs : List Nat) (hs : step s (.insertElement vs) = some s') :
    Inv s0 (calls ++ [.insertElement vs]) s' := by
  simp only [step] at hs
  cases h1 : vs.mapM fun v => s.vertexIdMap[v]? with
  | none => rw [h1] at hs; simp at hs
  | some ids =>
    rw [h1] at hs
    simp only [Option.some.injEq] at hs
    subst hs
    have hk : keyOf s.vertexIdMap vs = some (sortIds ids) := by unfold keyOf; rw [h1]; rfl
    have hnm : named s0.verts (calls ++ [Call.insertElement vs]) = named s0.verts calls := by rw [named_append]; simp [named]
    have hel : elements (calls ++ [Call.insertElement (P := P) vs]) = elements calls ++ [vs] := by rw [elements_append]; rfl
    have hlen : (elements (calls ++ [Call.insertElement (P := P) vs])).length = (elements calls).length + 1 := by rw [hel]; simp
    refine ⟨I.point, I.id, by rw [hnm]; exact I.flag, by rw [hnm]; exact I.idm, ?_, ?_, ?_, ?_⟩
    · intro k
      simp only
      rw [Option.isSome_iff_exists, Map.find_isSome_iff, Map.mem_keys_insert, ← Map.find_isSome_iff, ← Option.isSome_iff_exists, I.seg k, hel]
      simp only [List.mem_append, List.mem_cons, List.not_mem_nil, or_false]
      constructor
      · rintro ((h | ⟨ws, h2, h3⟩) | rfl)
        · exact Or.inl h
        · exact Or.inr ⟨ws, Or.inl h2, h3⟩
        · exact Or.inr ⟨vs, Or.inr rfl, hk⟩
      · rintro (h | ⟨ws, h2 | rfl, h3⟩)
        · exact Or.inl (Or.inl h)
        · exact Or.inl (Or.inr ⟨ws, h2, h3⟩)
        · rw [hk] at h3; exact Or.inr (Option.some.inj h3).symm
    · intro k i
      simp only
      rw [hel]
      by_cases hkk : k = sortIds ids
      · subst hkk
        cases hf : Map.find s.insertionIndexMap (sortIds ids) with
        | some i0 =>
          rw [Map.insert_old hf, I.idx]
          constructor
          · rintro ⟨ws, a1, a2, a3⟩
            have hlt := (List.getElem?_eq_some_iff.1 a1).1
            refine ⟨ws, by rw [List.getElem?_append_left hlt]; exact a1, a2, fun j us hj hu => ?_⟩
            rw [List.getElem?_append_left (by omega)] at hu
            exact a3 j us hj hu
          · rintro ⟨ws, a1, a2, a3⟩
            obtain ⟨us, b1, b2, b3⟩ := (I.idx _ _).1 hf
            have hlt0 := (List.getElem?_eq_some_iff.1 b1).1
            have hil : i < (elements calls).length := by
              by_contra hge
              exact a3 i0 us (by omega) (by rw [List.getElem?_append_left hlt0]; exact b1) b2
            rw [List.getElem?_append_left hil] at a1
            exact ⟨ws, a1, a2, fun j us' hj hu' => a3 j us' hj (by rw [List.getElem?_append_left (by omega)]; exact hu')⟩
        | none =>
          rw [Map.find_insert_new hf, if_pos rfl, I.count]
          have hno : ∀ (j : Nat) (ws : List Nat), (elements calls)[j]? = some ws → keyOf s.vertexIdMap ws ≠ some (sortIds ids) := by
            intro j
            induction j using Nat.strong_induction_on with
            | _ j ihj =>
              intro ws hw hke
              have := (I.idx (sortIds ids) j).2 ⟨ws, hw, hke, fun j' ws' hj' hw' => ihj j' hj' ws' hw'⟩
              rw [hf] at this
              exact absurd this (by simp)
          constructor
          · intro e
            have e := Option.some.inj e
            subst e
            refine ⟨vs, by simp, hk, fun j ws hj hw => ?_⟩
            rw [List.getElem?_append_left hj] at hw
            exact hno j ws hw
          · rintro ⟨ws, a1, a2, -⟩
            by_cases hil : i < (elements calls).length
            · rw [List.getElem?_append_left hil] at a1
              exact absurd a2 (hno i ws a1)
            · have := (List.getElem?_eq_some_iff.1 a1).1
              simp at this
              exact congrArg some (by omega)
      · rw [Map.find_insert_ne (Ne.symm (Ne.symm hkk)), I.idx]
        constructor
        · rintro ⟨ws, a1, a2, a3⟩
          have hlt := (List.getElem?_eq_some_iff.1 a1).1
          refine ⟨ws, by rw [List.getElem?_append_left hlt]; exact a1, a2, fun j us hj hu => ?_⟩
          rw [List.getElem?_append_left (by omega)] at hu
          exact a3 j us hj hu
        · rintro ⟨ws, a1, a2, a3⟩
          have hil : i < (elements calls).length := by
            by_contra hge
            have hlt := (List.getElem?_eq_some_iff.1 a1).1
            simp at hlt
            have hi : i = (elements calls).length := by omega
            subst hi
            simp only [List.getElem?_concat_length, Option.some.injEq] at a1
            subst a1
            rw [hk] at a2
            exact hkk (Option.some.inj a2).symm
          rw [List.getElem?_append_left hil] at a1
          exact ⟨ws, a1, a2, fun j us hj hu => a3 j us hj (by rw [List.getElem?_append_left (by omega)]; exact hu)⟩
    · simp only
      rw [hlen, I.count]
    · intro ws hws
      rw [hel] at hws
      rcases List.mem_append.1 hws with h2 | h2
      · exact I.defined ws h2
      · simp only [List.mem_cons, List.not_mem_nil, or_false] at h2
        subst h2
        exact ⟨_, hk⟩

theorem inv_run {s0 : State P} (G : Good s0) {calls : List (Call P)} (hold : OnlyOld s0.verts calls) {s : State P} (hs : run s0 calls = some s) : Inv s0 calls s := by
  induction calls using List.reverseRecOn generalizing s with
  | nil =>
    simp only [run, Option.some.injEq] at hs
    subst hs
    obtain ⟨f1, f2, f3⟩ := G.fresh
    refine ⟨rfl, rfl, ?_, ?_, ?_, ?_, f3, ?_⟩
    · intro v hv
      simp only [named, List.not_mem_nil, or_false]
      constructor
      · intro h; exact ⟨v, hv, rfl, h⟩
      · rintro ⟨v0, hv0, e, h⟩
        have := List.inj_on_of_nodup_map G.points hv0 hv e
        rw [← this]; exact h
    · rw [f1]; exact .nil
    · intro k; simp [elements]
    · intro k i; rw [f2]; simp [elements]
    · intro vs hvs; simp [elements] at hvs
  | append_singleton calls c ih =>
    rw [run_append] at hs
    have hold' : OnlyOld s0.verts calls := fun x hx => hold x (by rw [named_append]; simp [hx])
    cases h1 : run s0 calls with
    | none => rw [h1] at hs; simp at hs
    | some s1 =>
      rw [h1] at hs
      simp only [Option.bind_some, run] at hs
      have hs2 : step s1 c = some s := by
        cases h2 : step s1 c with
        | none => rw [h2] at hs; simp at hs
        | some s2 => rw [h2] at hs; simpa [run] using hs
      have I := ih hold' h1
      have hlen : s1.verts.length = s0.verts.length := by have := congrArg List.length I.point; simpa using this
      cases c with
      | insertElement vs => exact inv_element I vs hs2
      | addVertexHandle h =>
        simp only [step, Option.some.injEq] at hs2
        subst hs2
        obtain ⟨v0, hv0, e⟩ := hold ((s0.verts[h]?).map (·.point)) (by rw [named_append]; simp [named])
        obtain ⟨u, hu, hup⟩ := Option.map_eq_some_iff.1 e
        have hlt : h < s1.verts.length := by rw [hlen]; exact (List.getElem?_eq_some_iff.1 hu).1
        have hpt : (s1.verts[h]'hlt).point = u.point := by
          have := congrArg (fun l : List P => l[h]?) I.point
          simp only [List.getElem?_map, hu, List.getElem?_eq_getElem hlt, Option.map_some, Option.some.injEq] at this
          exact this
        exact inv_register G I h _ (List.getElem?_eq_getElem hlt) _ (by simp [named, hu, hpt]) rfl
      | insertVertex p junk =>
        obtain ⟨v0, hv0, e⟩ := hold (some p) (by rw [named_append]; simp [named])
        have hin : p ∈ s1.verts.map (·.point) := by rw [I.point]; exact List.mem_map.2 ⟨v0, hv0, (Option.some.inj e).symm⟩
        obtain ⟨w, hw, hwp⟩ := List.mem_map.1 hin
        simp only [step, Option.some.injEq] at hs2
        cases hf : s1.verts.findIdx? (fun v => v.point = p) with
        | none =>
          have := List.findIdx?_eq_none_iff.1 hf w hw
          simp [hwp] at this
        | some k =>
          obtain ⟨hk, hp, -⟩ := List.findIdx?_eq_some_iff_getElem.1 hf
          have hh : hostInsert s1.verts p junk = (k, s1.verts) := by unfold hostInsert; rw [hf]
          rw [hh] at hs2
          subst hs2
          have hp' : s1.verts[k].point = p := by simpa using hp
          exact inv_register G I k _ (List.getElem?_eq_getElem hk) _ (by rw [hp']; rfl) rfl

/-- Ids of named vertices. -/
theorem forall₂_getElem? {α β : Type} {R : α → β → Prop} {l : List α} {m : List β} (h : List.Forall₂ R l m) (i : Nat) (b : β) (hb : m[i]? = some b) :
    ∃ a, l[i]? = some a ∧ R a b := by
  induction h generalizing i with
  | nil => simp at hb
  | @cons a b' l m hab _ ih =>
    cases i with
    | zero => simp only [List.getElem?_cons_zero, Option.some.injEq] at hb; subst hb; exact ⟨a, rfl, hab⟩
    | succ i => simpa using ih i hb

theorem forall₂_getElem?' {α β : Type} {R : α → β → Prop} {l : List α} {m : List β} (h : List.Forall₂ R l m) (i : Nat) (a : α) (ha : l[i]? = some a) :
    ∃ b, m[i]? = some b ∧ R a b := by
  induction h generalizing i with
  | nil => simp at ha
  | @cons a' b l m hab _ ih =>
    cases i with
    | zero => simp only [List.getElem?_cons_zero, Option.some.injEq] at ha; subst ha; exact ⟨b, rfl, hab⟩
    | succ i => simpa using ih i ha

theorem mapM_forall₂ {α β : Type} (f : α → Option β) (l : List α) (r : List β) : l.mapM f = some r ↔ List.Forall₂ (fun a b => f a = some b) l r := by
  induction l generalizing r with
  | nil =>
    simp only [List.mapM_nil, Option.pure_def, Option.some.injEq]
    constructor
    · rintro rfl; exact .nil
    · intro h; cases h; rfl
  | cons a l ih =>
    simp only [List.mapM_cons, Option.pure_def, Option.bind_eq_bind]
    constructor
    · intro h
      cases h1 : f a with
      | none => rw [h1] at h; simp at h
      | some b =>
        rw [h1] at h
        simp only [Option.bind_some] at h
        cases h2 : l.mapM f with
        | none => rw [h2] at h; simp at h
        | some bs =>
          rw [h2] at h
          simp only [Option.bind_some, Option.some.injEq] at h
          subst h
          exact .cons h1 ((ih bs).1 h2)
    · intro h
      cases h with
      | cons h1 h2 => rw [h1, (ih _).2 h2]; rfl

theorem perm_map_order (facet : List (Vtx P)) (ids : List Nat) (hp : ids.Perm (facet.map (·.id))) : ∃ us : List (Vtx P), us.Perm facet ∧ us.map (·.id) = ids := by
  generalize hl : facet.map (·.id) = l at hp
  induction hp generalizing facet with
  | nil => exact ⟨facet, List.Perm.refl _, hl⟩
  | @cons x l1 l2 _ ih =>
    cases facet with
    | nil => simp at hl
    | cons a t =>
      simp only [List.map_cons, List.cons.injEq] at hl
      obtain ⟨us, h1, h2⟩ := ih t hl.2
      exact ⟨a :: us, h1.cons a, by rw [List.map_cons, hl.1, h2]⟩
  | swap x y l =>
    match facet, hl with
    | a :: b :: t, hl =>
      simp only [List.map_cons, List.cons.injEq] at hl
      exact ⟨b :: a :: t, List.Perm.swap a b t, by simp [hl]⟩
  | trans _ _ ih1 ih2 =>
    obtain ⟨us, h1, h2⟩ := ih2 facet hl
    obtain ⟨ws, h3, h4⟩ := ih1 us h2
    exact ⟨ws, h3.trans h1, h4⟩

/-- A facet of the grid has the key of an inserted element exactly if it is that element. -/
theorem key_iff {s0 : State P} (G : Good s0) {calls : List (Call P)} {s : State P} (I : Inv s0 calls s) (facet : List (Vtx P)) (hm : ∀ v ∈ facet, v ∈ s.verts) (vs : List Nat) :
    keyOf s.vertexIdMap vs = some (sortIds (facet.map (·.id))) ↔ IsElement (named s0.verts calls) facet vs := by
  have hsame : ∀ v ∈ s.verts, ∃ v0 ∈ s0.verts, v0.point = v.point ∧ v0.id = v.id := by
    intro v hv
    obtain ⟨h, hh⟩ := List.getElem?_of_mem hv
    have hlt := (List.getElem?_eq_some_iff.1 hh).1
    have hl : s.verts.length = s0.verts.length := by have := congrArg List.length I.point; simpa using this
    have e1 : s0.verts[h]? = some s0.verts[h] := List.getElem?_eq_getElem (hl ▸ hlt)
    refine ⟨s0.verts[h]'(hl ▸ hlt), List.getElem_mem _, ?_, ?_⟩
    · have := congrArg (fun l : List P => l[h]?) I.point
      simp only [List.getElem?_map, hh, e1, Option.map_some, Option.some.injEq] at this
      exact this.symm
    · have := congrArg (fun l : List Nat => l[h]?) I.id
      simp only [List.getElem?_map, hh, e1, Option.map_some, Option.some.injEq] at this
      exact this.symm
  unfold keyOf
  rw [Option.map_eq_some_iff]
  constructor
  · rintro ⟨ids, h1, h2⟩
    have hp : ids.Perm (facet.map (·.id)) := (sort_eq_iff _ _).1 h2
    -- order the vertices of the facet like the ids
    obtain ⟨us, hu1, hu2⟩ : ∃ us : List (Vtx P), us.Perm facet ∧ us.map (·.id) = ids := by
      clear h1 h2
      exact perm_map_order facet ids hp
    refine ⟨us, hu1, ?_⟩
    have h3 := (mapM_forall₂ _ _ _).1 h1
    rw [← hu2] at h3
    have hmu : ∀ u ∈ us, u ∈ s.verts := fun u hu => hm u (hu1.mem_iff.1 hu)
    clear h1 h2 hp hu1 hu2
    rw [List.forall₂_map_right_iff] at h3
    refine List.forall₂_iff_get.2 ⟨h3.length_eq, fun i hi hi' => ?_⟩
    have h4 := (List.forall₂_iff_get.1 h3).2 i hi hi'
    obtain ⟨x, hx1, v, hv, rfl, hid⟩ := forall₂_getElem? I.idm _ _ h4
    rw [hx1]
    obtain ⟨w0, hw0, hwp, hwi⟩ := hsame (us.get ⟨i, hi'⟩) (hmu _ (List.get_mem _ _))
    have := List.inj_on_of_nodup_map G.ids hv hw0 (by rw [hwi, hid])
    rw [this, hwp]
  · rintro ⟨us, hu1, hu2⟩
    refine ⟨us.map (·.id), (mapM_forall₂ _ _ _).2 ?_, (sort_eq_iff _ _).2 (hu1.map _)⟩
    rw [List.forall₂_map_right_iff]
    have hmu : ∀ u ∈ us, u ∈ s.verts := fun u hu => hm u (hu1.mem_iff.1 hu)
    refine List.forall₂_iff_get.2 ⟨hu2.length_eq, fun i hi hi' => ?_⟩
    have h4 := (List.forall₂_iff_get.1 hu2).2 i hi hi'
    obtain ⟨j, hj, v, hv, he, rfl⟩ := forall₂_getElem?' I.idm _ _ h4
    rw [hj]
    obtain ⟨w0, hw0, hwp, hwi⟩ := hsame (us.get ⟨i, hi'⟩) (hmu _ (List.get_mem _ _))
    have := List.inj_on_of_nodup_map G.points hv hw0 (by rw [hwp]; exact (Option.some.inj he).symm)
    rw [this, hwi]

/-! ## C88 -/

/-- C88: if the factory is only given vertices that the mesh has, a facet of the mesh is an interface element afterwards exactly if it was one before or was
inserted. `facet` are the vertices afterwards, `facet0` the same vertices before. -/
theorem C88_interface (s0 : State P) (G : Good s0) (calls : List (Call P)) (hold : OnlyOld s0.verts calls) (s : State P) (hs : run s0 calls = some s)
    (facet facet0 : List (Vtx P)) (hm : ∀ v ∈ facet, v ∈ s.verts) (hm0 : ∀ v ∈ facet0, v ∈ s0.verts) (hsame : facet0.map (·.point) = facet.map (·.point)) :
    isInterface s facet = true ↔ isInterface s0 facet0 = true ∨ ∃ vs ∈ elements calls, IsElement (named s0.verts calls) facet vs := by
  have I := inv_run G hold hs
  -- ids did not change
  have hids : facet0.map (·.id) = facet.map (·.id) := by
    have hl : facet0.length = facet.length := by have := congrArg List.length hsame; simpa using this
    refine List.ext_getElem (by simpa using hl) fun i h1 h2 => ?_
    rw [List.getElem_map, List.getElem_map]
    have hi0 : i < facet0.length := by simpa using h1
    have hi : i < facet.length := by simpa using h2
    have hp : facet0[i].point = facet[i].point := by
      have := congrArg (fun l : List P => l[i]?) hsame
      simpa [List.getElem?_map, List.getElem?_eq_getElem hi0, List.getElem?_eq_getElem hi] using this
    obtain ⟨h, hh⟩ := List.getElem?_of_mem (hm _ (List.getElem_mem hi))
    have hlt := (List.getElem?_eq_some_iff.1 hh).1
    have hll : s.verts.length = s0.verts.length := by have := congrArg List.length I.point; simpa using this
    have e1 : s0.verts[h]? = some s0.verts[h] := List.getElem?_eq_getElem (hll ▸ hlt)
    have p1 : s0.verts[h].point = facet[i].point := by
      have := congrArg (fun l : List P => l[h]?) I.point
      simp only [List.getElem?_map, hh, e1, Option.map_some, Option.some.injEq] at this
      exact this.symm
    have p2 : s0.verts[h].id = facet[i].id := by
      have := congrArg (fun l : List Nat => l[h]?) I.id
      simp only [List.getElem?_map, hh, e1, Option.map_some, Option.some.injEq] at this
      exact this.symm
    have := List.inj_on_of_nodup_map G.points (hm0 _ (List.getElem_mem hi0)) (List.getElem_mem (hll ▸ hlt)) (hp.trans p1.symm)
    rw [this, p2]
  have hex : (∃ vs ∈ elements calls, keyOf s.vertexIdMap vs = some (sortIds (facet.map (·.id)))) ↔ ∃ vs ∈ elements calls, IsElement (named s0.verts calls) facet vs :=
    exists_congr fun vs => and_congr Iff.rfl (key_iff G I facet hm vs)
  unfold isInterface
  simp only [Bool.and_eq_true, List.all_eq_true]
  rw [I.seg, hex, hids]
  constructor
  · rintro ⟨h1, h2 | h2⟩
    · left
      refine ⟨fun v hv => ?_, h2⟩
      obtain ⟨m, hmm⟩ := Option.isSome_iff_exists.1 h2
      refine G.flags _ m hmm v (hm0 v hv) ?_
      rw [(sortIds_perm _).mem_iff, ← hids]
      exact List.mem_map.2 ⟨v, hv, rfl⟩
    · exact Or.inr h2
  · rintro (⟨h1, h2⟩ | ⟨vs, h1, h2⟩)
    · refine ⟨fun v hv => ?_, Or.inl h2⟩
      rw [I.flag v (hm v hv)]
      left
      have : v.point ∈ facet0.map (·.point) := by rw [hsame]; exact List.mem_map.2 ⟨v, hv, rfl⟩
      obtain ⟨v0, hv0, e⟩ := List.mem_map.1 this
      exact ⟨v0, hm0 v0 hv0, e, h1 v0 hv0⟩
    · refine ⟨fun v hv => ?_, Or.inr ⟨vs, h1, h2⟩⟩
      rw [I.flag v (hm v hv)]
      right
      obtain ⟨us, hu1, hu2⟩ := h2
      obtain ⟨i, hi⟩ := List.getElem?_of_mem (hu1.symm.mem_iff.1 hv)
      obtain ⟨a, ha, hr⟩ := forall₂_getElem? hu2 i v hi
      exact List.mem_of_getElem? hr

/-- C88: `insertionIndex` of an interface element is the number of the first `insertElement` that named its vertices. -/
theorem C88_index (s0 : State P) (G : Good s0) (calls : List (Call P)) (hold : OnlyOld s0.verts calls) (s : State P) (hs : run s0 calls = some s)
    (facet : List (Vtx P)) (hm : ∀ v ∈ facet, v ∈ s.verts) (i : Nat) (vs : List Nat) (hi : (elements calls)[i]? = some vs) (he : IsElement (named s0.verts calls) facet vs)
    (hfirst : ∀ j ws, j < i → (elements calls)[j]? = some ws → ¬ IsElement (named s0.verts calls) facet ws) : insertionIndex s facet = i := by
  have I := inv_run G hold hs
  have := (I.idx (sortIds (facet.map (·.id))) i).2 ⟨vs, hi, (key_iff G I facet hm vs).2 he, fun j ws hj hw e => hfirst j ws hj hw ((key_iff G I facet hm ws).1 e)⟩
  unfold insertionIndex
  rw [this]

/-- A mesh with three vertices at the points 10, 20, 30. -/
def exGrid : State Nat := { verts := [⟨10, 4, true, false⟩, ⟨20, 5, true, false⟩, ⟨30, 6, true, false⟩], interfaceSegments := [] }

/-- The interface 20–10–30 is inserted. -/
def exCalls : List (Call Nat) := [.insertVertex 20 0, .addVertexHandle 0, .insertVertex 30 0, .insertElement [1, 0], .insertElement [1, 2]]

/-- The hypotheses hold for the example, and the elements are found with their insertion indices. -/
example : Good exGrid ∧ OnlyOld exGrid.verts exCalls ∧ ∃ s, run exGrid exCalls = some s ∧
    isInterface s [⟨10, 4, true, true⟩, ⟨30, 6, true, true⟩] = true ∧ insertionIndex s [⟨10, 4, true, true⟩, ⟨30, 6, true, true⟩] = 1 ∧
    isInterface s [⟨20, 5, true, true⟩, ⟨30, 6, true, true⟩] = false := by
  refine ⟨⟨by decide, by decide, ?_, rfl, rfl, rfl⟩, ?_, _, rfl, by decide, by decide, by decide⟩
  · intro k m h; simp [exGrid] at h
  · intro x hx
    have : x = some 20 ∨ x = some 10 ∨ x = some 30 := by simpa [named, exCalls, exGrid] using hx
    rcases this with rfl | rfl | rfl
    · exact ⟨⟨20, 5, true, false⟩, by simp [exGrid], rfl⟩
    · exact ⟨⟨10, 4, true, false⟩, by simp [exGrid], rfl⟩
    · exact ⟨⟨30, 6, true, false⟩, by simp [exGrid], rfl⟩

/-- C140 fails if a vertex is inserted that the mesh does not have: it gets a proper id only at the next update of the grid, and then the element that was inserted
with it is no longer an interface element (unless the uninitialised memory happened to contain the id it gets). -/
theorem C140_new_vertex_false (junk : Nat) (hj : junk ≠ 7) : ∃ s, run exGrid [.insertVertex 10 0, .insertVertex 40 junk, .insertElement [0, 1]] = some s ∧
    isInterface s [⟨10, 4, true, true⟩, ⟨40, junk, false, true⟩] = true ∧
    (updateIds s.verts 7).filter (fun v => v.point = 10 ∨ v.point = 40) = [⟨10, 4, true, true⟩, ⟨40, 7, true, true⟩] ∧
    isInterface s [⟨10, 4, true, true⟩, ⟨40, 7, true, true⟩] = false := by
  refine ⟨⟨[⟨10, 4, true, true⟩, ⟨20, 5, true, false⟩, ⟨30, 6, true, false⟩, ⟨40, junk, false, true⟩], [(sortIds [4, junk], 1)],
    [4, junk], [(sortIds [4, junk], 0)], 1⟩, rfl, ?_, rfl, ?_⟩
  · simp [isInterface, Map.find]
  · have : ¬ (sortIds [4, junk] = sortIds [4, 7]) := fun h => by
      have hp := (sort_eq_iff _ _).1 h
      have : junk ∈ [4, 7] := hp.mem_iff.1 (by simp)
      simp only [List.mem_cons, List.not_mem_nil, or_false] at this
      rcases this with rfl | rfl
      · have : (7 : Nat) ∈ [4, 4] := hp.mem_iff.2 (by simp)
        simp at this
      · exact hj rfl
    simp [isInterface, Map.find, this]

end Verif.InterfaceFactory
