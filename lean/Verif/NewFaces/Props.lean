import Verif.NewFaces.Model
import Verif.HoleRemesh.Props
import Mathlib.Logic.Relation

/-!
# Removing interface vertices next to faces created in the same adaptation
-/

namespace Verif.NewFaces

open Verif RefElem

/-! ## Specification -/

/-- The side `i` of the face `f` is the edge between `v` and `o`. -/
def EdgeOf (f : Face) (i : Fin 3) (v o : ℕ) : Prop :=
  ∃ j k, j ≠ k ∧ j ≠ i ∧ k ≠ i ∧ f.vtx j = v ∧ f.vtx k = o

/-- What a circulator around `v` visits: sides of faces that contain `v`, through every face at `v` once, every
neighbour of `v` once. -/
structure Around (h : Host) (v : ℕ) (l : List (Face × Fin 3)) : Prop where
  nodup : l.Nodup
  edge : ∀ e ∈ l, e.1 ∈ h.faces ∧ ∃ o, o ≠ v ∧ EdgeOf e.1 e.2 v o
  face : ∀ f ∈ h.faces, (∃ j, f.vtx j = v) → ∃ i, (f, i) ∈ l
  once : ∀ e ∈ l, ∀ e' ∈ l, ∀ o, EdgeOf e.1 e.2 v o → EdgeOf e'.1 e'.2 v o → e = e'
  all : ∀ f ∈ h.faces, ∀ j k, j ≠ k → f.vtx j = v → ∃ e ∈ l, EdgeOf e.1 e.2 v (f.vtx k)

/-- The edge between `v` and `o` is an interface element. -/
def Segment (h : Host) (v o : ℕ) : Prop :=
  h.flag v = true ∧ h.flag o = true ∧ ∃ m, (sortIds [h.id v, h.id o], m) ∈ h.segs

/-- The state of the infos when no adaptation is going on: every face has a permutation of its slots. -/
def Settled (h : Host) : Prop :=
  (∀ f ∈ h.faces, f.name < h.fresh) ∧ ∀ f ∈ h.faces, ∃ σ : Equiv.Perm (Fin 3), ∀ k, f.c k = (σ k).val

/-! ## Lemmas -/

theorem slot_table : ∀ (x y z i : Fin 3), x ≠ y → x ≠ z → y ≠ z → ∃ a b, a ≠ b ∧ a ≠ i ∧ b ≠ i ∧
    slot ![x.val, y.val, z.val] i 0 = some a ∧ slot ![x.val, y.val, z.val] i 1 = some b := by
  decide +kernel

theorem slot_perm (σ : Equiv.Perm (Fin 3)) (i : Fin 3) : ∃ a b, a ≠ b ∧ a ≠ i ∧ b ≠ i ∧
    slot (fun k => (σ k).val) i 0 = some a ∧ slot (fun k => (σ k).val) i 1 = some b := by
  have hfun : (fun k => (σ k).val) = ![(σ 0).val, (σ 1).val, (σ 2).val] := by
    funext k
    fin_cases k <;> rfl
  rw [hfun]
  exact slot_table (σ 0) (σ 1) (σ 2) i (by simp) (by simp) (by simp)

theorem store_none {a : Fin 3 → ℕ} {i k : ℕ} (h : 3 ≤ i) : store a i k = none := by
  unfold store
  rw [dif_neg (by omega)]

theorem invert_none {c : Fin 3 → ℕ} {k : Fin 3} (h : 3 ≤ c k) : invert c = none := by
  unfold invert
  have h3 : k = 0 ∨ k = 1 ∨ k = 2 := by omega
  rcases h3 with rfl | rfl | rfl
  · rw [store_none h]; rfl
  · cases store c (c 0) 0 with
    | none => rfl
    | some a => simp only [Option.bind_some]; rw [store_none h]; rfl
  · cases store c (c 0) 0 with
    | none => rfl
    | some a =>
      simp only [Option.bind_some]
      cases store a (c 1) 1 with
      | none => rfl
      | some b => simp only [Option.bind_some]; rw [store_none h]

theorem isInterface_none {h : Host} {f : Face} {i k : Fin 3} (hk : 3 ≤ f.c k) : isInterface h f i = none := by
  simp only [isInterface, slot, duneFacet, invert_none hk, Option.bind_none]

theorem isInterface_perm {h : Host} {f : Face} {i : Fin 3} {σ : Equiv.Perm (Fin 3)} (hc : ∀ k, f.c k = (σ k).val) :
    ∃ a b, a ≠ b ∧ a ≠ i ∧ b ≠ i ∧ isInterface h f i = some (h.flag (f.vtx a) && h.flag (f.vtx b) &&
      (Map.find h.segs (sortIds [h.id (f.vtx a), h.id (f.vtx b)])).isSome) := by
  obtain ⟨a, b, hab, ha, hb, h0, h1⟩ := slot_perm σ i
  have hc' : f.c = fun k => (σ k).val := funext hc
  refine ⟨a, b, hab, ha, hb, ?_⟩
  simp only [isInterface, hc', h0, h1, Option.bind_some]
  cases h.flag (f.vtx a) <;> cases h.flag (f.vtx b) <;> simp

theorem sort_comm (x y : ℕ) : sortIds [x, y] = sortIds [y, x] := InterfaceOps.key_comm x y

theorem sort_ne {v x y : ℕ} (hxy : x ≠ y) : sortIds [v, x] ≠ sortIds [v, y] := by
  intro e
  have h : ([v, x] : List ℕ).Perm [v, y] := by
    have h1 := List.perm_insertionSort (· ≤ ·) [v, x]
    have h2 := List.perm_insertionSort (· ≤ ·) [v, y]
    unfold sortIds at e
    rw [e] at h1
    exact h1.symm.trans h2
  have := (List.perm_cons v).1 h
  simp at this
  exact hxy this

theorem third {i j k a b : Fin 3} (h1 : j ≠ k) (h2 : j ≠ i) (h3 : k ≠ i) (h4 : a ≠ b) (h5 : a ≠ i) (h6 : b ≠ i) :
    (a = j ∧ b = k) ∨ (a = k ∧ b = j) := by omega

theorem isInterface_spec {h : Host} {f : Face} {i : Fin 3} {σ : Equiv.Perm (Fin 3)} (hc : ∀ k, f.c k = (σ k).val)
    {v o : ℕ} (he : EdgeOf f i v o) :
    isInterface h f i = some (h.flag v && h.flag o && (Map.find h.segs (sortIds [h.id v, h.id o])).isSome) := by
  obtain ⟨a, b, hab, ha, hb, hi⟩ := isInterface_perm (h := h) (i := i) hc
  obtain ⟨j, k, hjk, hj, hk, rfl, rfl⟩ := he
  rw [hi]
  rcases third hjk hj hk hab ha hb with ⟨rfl, rfl⟩ | ⟨rfl, rfl⟩
  · rfl
  · rw [sort_comm, Bool.and_comm (h.flag _) (h.flag _)]

theorem segment_iff {h : Host} {v o : ℕ} :
    (h.flag v && h.flag o && (Map.find h.segs (sortIds [h.id v, h.id o])).isSome) = true ↔ Segment h v o := by
  rw [Bool.and_eq_true, Bool.and_eq_true, Option.isSome_iff_exists, Map.find_isSome_iff, and_assoc]
  unfold Segment
  simp

theorem incident_none {h : Host} {l : List (Face × Fin 3)} {e : Face × Fin 3} {k : Fin 3} (he : e ∈ l) (hk : 3 ≤ e.1.c k) :
    incidentInterface h l = none := by
  induction l with
  | nil => simp at he
  | cons a t ih =>
    rcases List.mem_cons.1 he with rfl | ht
    · simp [incidentInterface, isInterface_none hk]
    · rw [incidentInterface, ih ht]
      cases isInterface h a.1 a.2 <;> rfl

theorem other_spec {h : Host} {f : Face} {i : Fin 3} {v o : ℕ} (he : EdgeOf f i v o) (hvo : o ≠ v) : other h v (f, i) = o := by
  obtain ⟨j, k, hjk, hj, hk, rfl, rfl⟩ := he
  have h1 : i + 1 ≠ i + 2 := by omega
  have h2 : i + 1 ≠ i := by omega
  have h3 : i + 2 ≠ i := by omega
  unfold other
  rcases third hjk hj hk h1 h2 h3 with ⟨h4, h5⟩ | ⟨h4, h5⟩ <;> simp only [h4, h5] <;> split_ifs <;> simp_all

theorem incident_perm {h : Host} {v : ℕ} {l : List (Face × Fin 3)}
    (hp : ∀ e ∈ l, ∃ σ : Equiv.Perm (Fin 3), ∀ k, e.1.c k = (σ k).val)
    (he : ∀ e ∈ l, ∃ o, o ≠ v ∧ EdgeOf e.1 e.2 v o) :
    incidentInterface h l = some (l.filter fun e => h.flag v && h.flag (other h v e) &&
      (Map.find h.segs (sortIds [h.id v, h.id (other h v e)])).isSome) := by
  induction l with
  | nil => rfl
  | cons a t ih =>
    obtain ⟨σ, hσ⟩ := hp a (by simp)
    obtain ⟨o, hov, ho⟩ := he a (by simp)
    have h2 : other h v a = o := other_spec ho hov
    rw [incidentInterface, isInterface_spec hσ ho, ih (fun e h' => hp e (by simp [h'])) (fun e h' => he e (by simp [h']))]
    rw [List.filter_cons, h2]
    rfl

/-- Infos survive until the end of the call. -/
theorem changes_perm {h₀ h : Host} (h0 : Settled h₀) (hc : Relation.ReflTransGen Change h₀ h) :
    h₀.fresh ≤ h.fresh ∧ (∀ f ∈ h.faces, f.name < h.fresh) ∧
      ∀ f ∈ h.faces, f.name < h₀.fresh → ∃ σ : Equiv.Perm (Fin 3), ∀ k, f.c k = (σ k).val := by
  induction hc with
  | refl => exact ⟨le_refl _, h0.1, fun f hf _ => h0.2 f hf⟩
  | tail _ hs ih =>
    obtain ⟨h1, h2⟩ := hs
    refine ⟨ih.1.trans h1, fun f hf => (h2 f hf).1, fun f hf hn => ?_⟩
    rcases (h2 f hf).2 with ⟨g, hg, hgn, hgc⟩ | h3
    · obtain ⟨σ, hσ⟩ := ih.2.2 g hg (hgn ▸ hn)
      exact ⟨σ, hgc ▸ hσ⟩
    · have := ih.1
      omega

/-! ## Theorems -/

/-- C165: after `setIds()` every face carries a permutation of its slots. -/
theorem C165_settled (h : Host) (hn : ∀ f ∈ h.faces, f.name < h.fresh) : Settled (setIds h) := by
  constructor
  · intro f hf
    obtain ⟨g, hg, rfl⟩ := List.mem_map.1 hf
    exact hn g hg
  · intro f hf
    obtain ⟨g, hg, rfl⟩ := List.mem_map.1 hf
    exact ⟨_, fun k => rfl⟩

/-- C165: if no face at the vertex `v` was created in the same call of `adapt()`, whatever the earlier requests of the call
did to the rest of the mesh and to the vertices of old faces, the search for the interface elements at `v` succeeds and
yields exactly the sides at `v` that are interface elements. -/
theorem C165_found {h₀ h : Host} (h0 : Settled h₀) (hc : Relation.ReflTransGen Change h₀ h) {v : ℕ}
    {l : List (Face × Fin 3)} (hl : Around h v l) (hold : ∀ f ∈ h.faces, (∃ j, f.vtx j = v) → f.name < h₀.fresh) :
    ∃ es, incidentInterface h l = some es ∧
      (∀ e, e ∈ es → ∃ o, o ≠ v ∧ EdgeOf e.1 e.2 v o ∧ Segment h v o) ∧
      ∀ f ∈ h.faces, ∀ j k, j ≠ k → f.vtx j = v → f.vtx k ≠ v → Segment h v (f.vtx k) →
        ∃! e, e ∈ es ∧ EdgeOf e.1 e.2 v (f.vtx k) := by
  have hp : ∀ e ∈ l, ∃ σ : Equiv.Perm (Fin 3), ∀ k, e.1.c k = (σ k).val := by
    intro e he
    obtain ⟨hf, o, -, j, k, -, -, -, hv, -⟩ := hl.edge e he
    exact (changes_perm h0 hc).2.2 e.1 hf (hold e.1 hf ⟨j, hv⟩)
  refine ⟨_, incident_perm hp fun e he => (hl.edge e he).2, ?_, ?_⟩
  · intro e he
    obtain ⟨he, hs⟩ := List.mem_filter.1 he
    obtain ⟨-, o, hov, ho⟩ := hl.edge e he
    have h2 : other h v e = o := other_spec ho hov
    rw [h2] at hs
    exact ⟨o, hov, ho, segment_iff.1 hs⟩
  · intro f hf j k hjk hv hkv hs
    obtain ⟨e, he, heo⟩ := hl.all f hf j k hjk hv
    refine ⟨e, ⟨List.mem_filter.2 ⟨he, ?_⟩, heo⟩, ?_⟩
    · have h2 : other h v e = f.vtx k := other_spec heo hkv
      rw [h2]
      exact segment_iff.2 hs
    · rintro e' ⟨he', heo'⟩
      exact hl.once e' (List.mem_filter.1 he').1 e he _ heo' heo

/-- C165: under the same condition the removal does to the segments what it does in the model of `InterfaceOps`, where the
interface elements at the vertex are known; the theorems on C27 speak about that model. `name` are the ids the vertices have
after the call: those of interface vertices are set at once, the others by `setIds()`. -/
theorem C165_removal {h₀ h : Host} (h0 : Settled h₀) (hc : Relation.ReflTransGen Change h₀ h) {v : ℕ}
    {l : List (Face × Fin 3)} (hl : Around h v l) (hold : ∀ f ∈ h.faces, (∃ j, f.vtx j = v) → f.name < h₀.fresh)
    (s : InterfaceOps.State) (name : ℕ → ℕ) (hsegs : s.segs = h.segs) (hname : ∀ x, h.flag x = true → name x = h.id x)
    (hflag : ∀ x, s.flag (name x) = h.flag x) (hv : h.flag v = true) :
    removeFromInterface h v l =
      some ((InterfaceOps.removeFromInterface s (name v) (l.map fun e => name (other h v e))).1.segs,
        (InterfaceOps.removeFromInterface s (name v) (l.map fun e => name (other h v e))).2) := by
  have hp : ∀ e ∈ l, ∃ σ : Equiv.Perm (Fin 3), ∀ k, e.1.c k = (σ k).val := by
    intro e he
    obtain ⟨hf, o, -, j, k, -, -, -, hv, -⟩ := hl.edge e he
    exact (changes_perm h0 hc).2.2 e.1 hf (hold e.1 hf ⟨j, hv⟩)
  have hlist : ((l.map fun e => name (other h v e)).filter fun o => InterfaceOps.isInterfaceBulk s [name v, o]) =
      (l.filter fun e => h.flag v && h.flag (other h v e) &&
        (Map.find h.segs (sortIds [h.id v, h.id (other h v e)])).isSome).map fun e => h.id (other h v e) := by
    rw [List.filter_map]
    have hfun : ∀ e, ((fun o => InterfaceOps.isInterfaceBulk s [name v, o]) ∘ fun e => name (other h v e)) e =
        (h.flag v && h.flag (other h v e) && (Map.find h.segs (sortIds [h.id v, h.id (other h v e)])).isSome) := by
      intro e
      simp only [Function.comp, InterfaceOps.isInterfaceBulk, List.all_cons, List.all_nil, hflag, Bool.and_true, hsegs]
      rw [hname v hv]
      cases ho : h.flag (other h v e)
      · simp
      · rw [hname _ ho]
    rw [List.filter_congr (fun e _ => hfun e)]
    apply List.map_congr_left
    intro e he
    have := (List.mem_filter.1 he).2
    simp only [Bool.and_eq_true] at this
    exact hname _ this.1.2
  unfold removeFromInterface InterfaceOps.removeFromInterface
  rw [incident_perm hp fun e he => (hl.edge e he).2, hlist, hsegs, hname v hv]
  simp only [Option.map_some]
  generalize InterfaceOps.collect _ _ _ = r
  rcases r with ⟨m, k, os⟩
  rcases os with _ | ⟨o, _ | ⟨o', _ | ⟨o'', t⟩⟩⟩ <;> rfl

theorem two_of_mem {a b : ℕ} {l : List ℕ} (hab : a ≠ b) (hnd : l.Nodup) (hm : ∀ o, o ∈ l ↔ o = a ∨ o = b) : l = [a, b] ∨ l = [b, a] := by
  have hp : l.Perm [a, b] := (List.perm_ext_iff_of_nodup hnd (by simp [hab])).2 (by simpa using hm)
  have hlen := hp.length_eq
  rcases l with _ | ⟨x, _ | ⟨y, _ | ⟨z, t⟩⟩⟩ <;> simp at hlen
  have hx := (hm x).1 (by simp)
  have hy := (hm y).1 (by simp)
  have hxy : x ≠ y := by simpa using hnd
  rcases hx with rfl | rfl <;> rcases hy with rfl | rfl <;> simp_all

/-- C165: under the same condition, if `v` has exactly two interface elements, to `a` and to `b`, the removal takes these two out of the interface, puts in
the segment between `a` and `b`, changes nothing else, and asks the host grid to remesh with the edge between `a` and `b`. -/
theorem C165_join {h₀ h : Host} (h0 : Settled h₀) (hc : Relation.ReflTransGen Change h₀ h) {v a b : ℕ}
    {l : List (Face × Fin 3)} (hl : Around h v l) (hold : ∀ f ∈ h.faces, (∃ j, f.vtx j = v) → f.name < h₀.fresh) (hab : a ≠ b)
    (hinj : ∀ x y, h.flag x = true → h.flag y = true → h.id x = h.id y → x = y)
    (ha : Segment h v a ∧ ∃ e ∈ l, EdgeOf e.1 e.2 v a) (hb : Segment h v b ∧ ∃ e ∈ l, EdgeOf e.1 e.2 v b) (hva : a ≠ v) (hvb : b ≠ v)
    (hno : ∀ o, o ≠ a → o ≠ b → ¬ Segment h v o) :
    ∃ segs', (removeFromInterface h v l = some (segs', some (h.id a, h.id b)) ∨ removeFromInterface h v l = some (segs', some (h.id b, h.id a))) ∧
      Map.find segs' (sortIds [h.id v, h.id a]) = none ∧ Map.find segs' (sortIds [h.id v, h.id b]) = none ∧
      (∃ m, Map.find segs' (sortIds [h.id a, h.id b]) = some m) ∧
      ∀ k, k ≠ sortIds [h.id v, h.id a] → k ≠ sortIds [h.id v, h.id b] → k ≠ sortIds [h.id a, h.id b] → Map.find segs' k = Map.find h.segs k := by
  have hp : ∀ e ∈ l, ∃ σ : Equiv.Perm (Fin 3), ∀ k, e.1.c k = (σ k).val := by
    intro e he
    obtain ⟨hf, o, -, j, k, -, -, -, hv, -⟩ := hl.edge e he
    exact (changes_perm h0 hc).2.2 e.1 hf (hold e.1 hf ⟨j, hv⟩)
  have hes := incident_perm (h := h) hp fun e he => (hl.edge e he).2
  generalize hesd : (l.filter fun e => h.flag v && h.flag (other h v e) && (Map.find h.segs (sortIds [h.id v, h.id (other h v e)])).isSome) = es at hes
  have hmem : ∀ o, o ∈ es.map (other h v) ↔ o = a ∨ o = b := by
    intro o
    rw [List.mem_map]
    constructor
    · rintro ⟨e, he, rfl⟩
      rw [← hesd] at he
      have := segment_iff.1 (List.mem_filter.1 he).2
      by_contra hcon
      push Not at hcon
      exact hno _ hcon.1 hcon.2 this
    · rintro (rfl | rfl)
      · obtain ⟨hs, e, he, heo⟩ := ha
        have h2 : other h v e = o := other_spec heo hva
        refine ⟨e, ?_, h2⟩
        rw [← hesd]
        exact List.mem_filter.2 ⟨he, by rw [h2]; exact segment_iff.2 hs⟩
      · obtain ⟨hs, e, he, heo⟩ := hb
        have h2 : other h v e = o := other_spec heo hvb
        refine ⟨e, ?_, h2⟩
        rw [← hesd]
        exact List.mem_filter.2 ⟨he, by rw [h2]; exact segment_iff.2 hs⟩
  have hnd : (es.map (other h v)).Nodup := by
    rw [List.nodup_map_iff_inj_on (hesd ▸ hl.nodup.filter _)]
    intro e he e' he' hee
    rw [← hesd] at he he'
    have he := (List.mem_filter.1 he).1
    have he' := (List.mem_filter.1 he').1
    obtain ⟨-, o, hov, ho⟩ := hl.edge e he
    obtain ⟨-, o', hov', ho'⟩ := hl.edge e' he'
    have h1 : other h v e = o := other_spec ho hov
    have h2 : other h v e' = o' := other_spec ho' hov'
    have : o = o' := by rw [← h1, ← h2, hee]
    subst this
    exact hl.once e he e' he' o ho ho'
  have key : ∀ x y, x ≠ y → x ≠ v → y ≠ v → Segment h v x → Segment h v y → es.map (other h v) = [x, y] →
      ∃ segs', removeFromInterface h v l = some (segs', some (h.id x, h.id y)) ∧
      Map.find segs' (sortIds [h.id v, h.id x]) = none ∧ Map.find segs' (sortIds [h.id v, h.id y]) = none ∧
      (∃ m, Map.find segs' (sortIds [h.id x, h.id y]) = some m) ∧
      ∀ k, k ≠ sortIds [h.id v, h.id x] → k ≠ sortIds [h.id v, h.id y] → k ≠ sortIds [h.id x, h.id y] → Map.find segs' k = Map.find h.segs k := by
    intro x y hxy hxv hyv hsx hsy hlist
    obtain ⟨mx, hmx⟩ := Map.find_isSome_iff.2 (by obtain ⟨-, -, m, hm⟩ := hsx; exact List.mem_map.2 ⟨_, hm, rfl⟩ : sortIds [h.id v, h.id x] ∈ h.segs.map Prod.fst)
    obtain ⟨my, hmy⟩ := Map.find_isSome_iff.2 (by obtain ⟨-, -, m, hm⟩ := hsy; exact List.mem_map.2 ⟨_, hm, rfl⟩ : sortIds [h.id v, h.id y] ∈ h.segs.map Prod.fst)
    have ixy : h.id x ≠ h.id y := fun e => hxy (hinj _ _ hsx.2.1 hsy.2.1 e)
    have ixv : h.id x ≠ h.id v := fun e => hxv (hinj _ _ hsx.2.1 hsx.1 e)
    have iyv : h.id y ≠ h.id v := fun e => hyv (hinj _ _ hsy.2.1 hsx.1 e)
    have kxy : sortIds [h.id v, h.id y] ≠ sortIds [h.id v, h.id x] := sort_ne ixy.symm
    have kx : sortIds [h.id v, h.id x] ≠ sortIds [h.id x, h.id y] := by rw [sort_comm]; exact sort_ne iyv.symm
    have ky : sortIds [h.id v, h.id y] ≠ sortIds [h.id x, h.id y] := by rw [sort_comm, sort_comm (h.id x)]; exact sort_ne ixv.symm
    have hl2 : es.map (fun e => h.id (other h v e)) = [h.id x, h.id y] := by
      rw [show (fun e => h.id (other h v e)) = h.id ∘ other h v from rfl, ← List.map_map, hlist]
      rfl
    have hcol : InterfaceOps.collect h.segs (h.id v) [h.id x, h.id y] =
        (Map.erase (Map.erase h.segs (sortIds [h.id v, h.id x])) (sortIds [h.id v, h.id y]), my, [h.id x, h.id y]) := by
      simp only [InterfaceOps.collect, List.foldl_cons, List.foldl_nil, InterfaceOps.key, hmx, Map.find_erase_ne kxy, hmy]
      rfl
    refine ⟨Map.insert (Map.erase (Map.erase h.segs (sortIds [h.id v, h.id x])) (sortIds [h.id v, h.id y])) (sortIds [h.id x, h.id y]) my, ?_, ?_, ?_, ?_, ?_⟩
    · simp only [removeFromInterface, hes, Option.map_some, hl2, hcol]
      rfl
    · rw [Map.find_insert_ne kx, Map.find_erase_ne kxy.symm, Map.find_erase_self]
    · rw [Map.find_insert_ne ky, Map.find_erase_self]
    · rw [Map.find_isSome_iff, Map.mem_keys_insert]
      exact Or.inr rfl
    · intro k h1 h2 h3
      rw [Map.find_insert_ne h3, Map.find_erase_ne h2, Map.find_erase_ne h1]
  rcases two_of_mem hab hnd hmem with h1 | h1
  · obtain ⟨s', k1, k2, k3, k4, k5⟩ := key a b hab hva hvb ha.1 hb.1 h1
    exact ⟨s', Or.inl k1, k2, k3, k4, k5⟩
  · obtain ⟨s', k1, k2, k3, k4, k5⟩ := key b a hab.symm hvb hva hb.1 ha.1 h1
    rw [sort_comm (h.id b)] at k4 k5
    exact ⟨s', Or.inr k1, k3, k2, k4, fun k h1 h2 h3 => k5 k h2 h1 h3⟩

/-- C164 is false: whenever a face at the vertex was created by an earlier request of the same call and its memory held
anything but small numbers, the removal leaves an array. -/
theorem C164_new_face_false (h : Host) (v : ℕ) (l : List (Face × Fin 3)) (hl : Around h v l) (f : Face) (hf : f ∈ h.faces)
    (hv : ∃ j, f.vtx j = v) (k : Fin 3) (hk : 3 ≤ f.c k) : removeFromInterface h v l = none := by
  obtain ⟨i, hi⟩ := hl.face f hf hv
  simp [removeFromInterface, incident_none hi hk]

/-! ## A strip with the interface 0 - 1 - 2 - 3 -/

/-- The faces above (vertex 4) and below (vertex 5) of the line 0 - 1 - 2 - 3, and around it the infinite faces (vertex 9). -/
def strip : Host where
  faces := [⟨0, ![0, 1, 4], ![0, 1, 2]⟩, ⟨1, ![1, 2, 4], ![0, 1, 2]⟩, ⟨2, ![2, 3, 4], ![0, 1, 2]⟩, ⟨3, ![1, 0, 5], ![1, 0, 2]⟩,
    ⟨4, ![2, 1, 5], ![1, 0, 2]⟩, ⟨5, ![3, 2, 5], ![1, 0, 2]⟩, ⟨6, ![4, 9, 0], ![2, 0, 1]⟩, ⟨7, ![0, 9, 5], ![0, 2, 1]⟩,
    ⟨8, ![5, 9, 3], ![2, 0, 1]⟩, ⟨9, ![3, 9, 4], ![0, 2, 1]⟩]
  fresh := 10
  id := fun x => x
  flag := fun x => x < 4
  segs := [([0, 1], 1), ([1, 2], 1), ([2, 3], 1)]

/-- The edges at the vertex 1 before, and those at the vertex 2 before and after its neighbour was removed. -/
def around1 : List (Face × Fin 3) :=
  [(⟨0, ![0, 1, 4], ![0, 1, 2]⟩, 2), (⟨3, ![1, 0, 5], ![1, 0, 2]⟩, 1), (⟨4, ![2, 1, 5], ![1, 0, 2]⟩, 2), (⟨1, ![1, 2, 4], ![0, 1, 2]⟩, 1)]

/-- The mesh after the vertex 1 was removed: two faces were created; `junk` is what was in their memory. -/
def joined (junk : Fin 3 → ℕ) : Host where
  faces := [⟨2, ![2, 3, 4], ![0, 1, 2]⟩, ⟨5, ![3, 2, 5], ![1, 0, 2]⟩, ⟨6, ![4, 9, 0], ![2, 0, 1]⟩, ⟨7, ![0, 9, 5], ![0, 2, 1]⟩,
    ⟨8, ![5, 9, 3], ![2, 0, 1]⟩, ⟨9, ![3, 9, 4], ![0, 2, 1]⟩, ⟨10, ![0, 2, 4], junk⟩, ⟨11, ![2, 0, 5], junk⟩]
  fresh := 12
  id := fun x => x
  flag := fun x => x < 4
  segs := [([2, 3], 1), ([0, 2], 1)]

/-- The edges at the vertex 2 then. -/
def around2 (junk : Fin 3 → ℕ) : List (Face × Fin 3) :=
  [(⟨10, ![0, 2, 4], junk⟩, 2), (⟨11, ![2, 0, 5], junk⟩, 1), (⟨5, ![3, 2, 5], ![1, 0, 2]⟩, 2), (⟨2, ![2, 3, 4], ![0, 1, 2]⟩, 1)]

theorem edgeOf_iff (f : Face) (i : Fin 3) (v o : ℕ) : EdgeOf f i v o ↔
    (f.vtx (i + 1) = v ∧ f.vtx (i + 2) = o) ∨ (f.vtx (i + 2) = v ∧ f.vtx (i + 1) = o) := by
  constructor
  · rintro ⟨j, k, hjk, hj, hk, hv, ho⟩
    have h1 : i + 1 ≠ i + 2 := by omega
    have h2 : i + 1 ≠ i := by omega
    have h3 : i + 2 ≠ i := by omega
    rcases third hjk hj hk h1 h2 h3 with ⟨rfl, rfl⟩ | ⟨rfl, rfl⟩
    · exact Or.inl ⟨hv, ho⟩
    · exact Or.inr ⟨hv, ho⟩
  · rintro (⟨hv, ho⟩ | ⟨hv, ho⟩)
    · exact ⟨i + 1, i + 2, by omega, by omega, by omega, hv, ho⟩
    · exact ⟨i + 2, i + 1, by omega, by omega, by omega, hv, ho⟩

theorem strip_settled : Settled strip := by
  refine ⟨by decide, ?_⟩
  have h : ∀ f ∈ strip.faces, ∃ σ : Fin 3 → Fin 3, Function.Injective σ ∧ ∀ k, f.c k = (σ k).val := by
    have h' : ∀ f ∈ strip.faces, ∃ x y z : Fin 3, x ≠ y ∧ x ≠ z ∧ y ≠ z ∧ f.c 0 = x.val ∧ f.c 1 = y.val ∧ f.c 2 = z.val := by
      decide
    intro f hf
    obtain ⟨x, y, z, hxy, hxz, hyz, h0, h1, h2⟩ := h' f hf
    refine ⟨![x, y, z], ?_, ?_⟩
    · intro a b hab
      fin_cases a <;> fin_cases b <;> simp_all
    · intro k
      fin_cases k <;> assumption
  intro f hf
  obtain ⟨σ, hσ, hc⟩ := h f hf
  exact ⟨Equiv.ofBijective σ (Finite.injective_iff_bijective.1 hσ), hc⟩

theorem around1_spec : Around strip 1 around1 := by
  constructor
  · simp [around1]
  · intro e he
    have hm : e.1 ∈ strip.faces := by
      simp only [around1, List.mem_cons, List.not_mem_nil, or_false] at he
      rcases he with rfl | rfl | rfl | rfl <;> simp [strip]
    refine ⟨hm, ?_⟩
    simp only [around1, List.mem_cons, List.not_mem_nil, or_false] at he
    rcases he with rfl | rfl | rfl | rfl <;> simp only [edgeOf_iff]
    · exact ⟨0, by decide⟩
    · exact ⟨5, by decide⟩
    · exact ⟨2, by decide⟩
    · exact ⟨4, by decide⟩
  · intro f hf hv
    simp only [strip, List.mem_cons, List.not_mem_nil, or_false] at hf
    rcases hf with rfl | rfl | rfl | rfl | rfl | rfl | rfl | rfl | rfl | rfl
    · exact ⟨2, by simp [around1]⟩
    · exact ⟨1, by simp [around1]⟩
    · exact absurd hv (by decide)
    · exact ⟨1, by simp [around1]⟩
    · exact ⟨2, by simp [around1]⟩
    all_goals exact absurd hv (by decide)
  · intro e he e' he' o h1 h2
    rw [edgeOf_iff] at h1 h2
    simp only [around1, List.mem_cons, List.not_mem_nil, or_false] at he he'
    rcases he with rfl | rfl | rfl | rfl <;> rcases he' with rfl | rfl | rfl | rfl <;> first | rfl | (exfalso; revert h1 h2; simp [Fin.isValue]; omega)
  · intro f hf j k hjk hv
    have h : ∀ f ∈ strip.faces, ∀ j k : Fin 3, j ≠ k → f.vtx j = 1 → ∃ e ∈ around1, (e.1.vtx (e.2 + 1) = 1 ∧ e.1.vtx (e.2 + 2) = f.vtx k) ∨
        (e.1.vtx (e.2 + 2) = 1 ∧ e.1.vtx (e.2 + 1) = f.vtx k) := by decide
    obtain ⟨e, he, h⟩ := h f hf j k hjk hv
    exact ⟨e, he, (edgeOf_iff _ _ _ _).2 h⟩

/-- What was in the memory of the new faces. -/
def junk : Fin 3 → ℕ := ![170, 170, 170]

theorem around2_spec : Around (joined junk) 2 (around2 junk) := by
  constructor
  · simp [around2]
  · intro e he
    have hm : e.1 ∈ (joined junk).faces := by
      simp only [around2, List.mem_cons, List.not_mem_nil, or_false] at he
      rcases he with rfl | rfl | rfl | rfl <;> simp [joined]
    refine ⟨hm, ?_⟩
    simp only [around2, List.mem_cons, List.not_mem_nil, or_false] at he
    rcases he with rfl | rfl | rfl | rfl <;> simp only [edgeOf_iff]
    · exact ⟨0, by decide⟩
    · exact ⟨5, by decide⟩
    · exact ⟨3, by decide⟩
    · exact ⟨4, by decide⟩
  · intro f hf hv
    simp only [joined, List.mem_cons, List.not_mem_nil, or_false] at hf
    rcases hf with rfl | rfl | rfl | rfl | rfl | rfl | rfl | rfl
    · exact ⟨1, by simp [around2]⟩
    · exact ⟨2, by simp [around2]⟩
    · exact absurd hv (by decide)
    · exact absurd hv (by decide)
    · exact absurd hv (by decide)
    · exact absurd hv (by decide)
    · exact ⟨2, by simp [around2]⟩
    · exact ⟨1, by simp [around2]⟩
  · intro e he e' he' o h1 h2
    rw [edgeOf_iff] at h1 h2
    simp only [around2, List.mem_cons, List.not_mem_nil, or_false] at he he'
    rcases he with rfl | rfl | rfl | rfl <;> rcases he' with rfl | rfl | rfl | rfl <;> first | rfl | (exfalso; revert h1 h2; simp [Fin.isValue]; omega)
  · intro f hf j k hjk hv
    have h : ∀ f ∈ (joined junk).faces, ∀ j k : Fin 3, j ≠ k → f.vtx j = 2 → ∃ e ∈ around2 junk, (e.1.vtx (e.2 + 1) = 2 ∧ e.1.vtx (e.2 + 2) = f.vtx k) ∨
        (e.1.vtx (e.2 + 2) = 2 ∧ e.1.vtx (e.2 + 1) = f.vtx k) := by decide
    obtain ⟨e, he, h⟩ := h f hf j k hjk hv
    exact ⟨e, he, (edgeOf_iff _ _ _ _).2 h⟩

/-- The hypotheses of C165 are met by the first request, which succeeds. -/
example : Settled strip ∧ Around strip 1 around1 ∧ (∀ f ∈ strip.faces, (∃ j, f.vtx j = 1) → f.name < strip.fresh) ∧
    removeFromInterface strip 1 around1 = some ([([2, 3], 1), ([0, 2], 1)], some (0, 2)) :=
  ⟨strip_settled, around1_spec, by decide, by decide +kernel⟩

/-- The host grid fills the hole of the vertex 1 by the two new faces of `joined` (here with the vertices 0, 5, 2, 4 at these
positions). -/
example : HoleRemesh.polygons (HoleRemesh.classify
    (fun x : Fin 6 => HoleRemesh.signedDistance (K := ℚ) ((![(0, 0), (1, 0), (2, 0), (3, 0), (3/2, 1), (3/2, -1)] : Fin 6 → ℚ × ℚ) 0)
      ((![(0, 0), (1, 0), (2, 0), (3, 0), (3/2, 1), (3/2, -1)] : Fin 6 → ℚ × ℚ) 2)
      ((![(0, 0), (1, 0), (2, 0), (3, 0), (3/2, 1), (3/2, -1)] : Fin 6 → ℚ × ℚ) x)) 0 2 [(0, 5), (5, 2), (2, 4), (4, 0)]) ≠ none := by
  decide +kernel

theorem strip_change (j : Fin 3 → ℕ) : Change strip (joined j) := by
  refine ⟨by simp [strip, joined], fun f hf => ?_⟩
  simp only [joined, List.mem_cons, List.not_mem_nil, or_false] at hf
  rcases hf with rfl | rfl | rfl | rfl | rfl | rfl | rfl | rfl <;> simp [strip, joined]

/-- C164 is false: on the line 0 - 1 - 2 - 3 the vertices 1 and 2 are removed in one call. The first removal joins 0 and 2; the
second one is undefined, although 2 has exactly two interface elements. -/
theorem C164_false : ¬ ∀ (h₀ h : Host) (v a b : ℕ) (l : List (Face × Fin 3)), Settled h₀ → Relation.ReflTransGen Change h₀ h →
    Around h v l → a ≠ b → Segment h v a → Segment h v b → (∃ e ∈ l, EdgeOf e.1 e.2 v a) → (∃ e ∈ l, EdgeOf e.1 e.2 v b) →
    (∀ o, o ≠ a → o ≠ b → ¬ Segment h v o) → ∃ segs, removeFromInterface h v l = some (segs, some (h.id a, h.id b)) ∨
      removeFromInterface h v l = some (segs, some (h.id b, h.id a)) := by
  intro H
  obtain ⟨segs, h1⟩ := H strip (joined junk) 2 0 3 (around2 junk) strip_settled (Relation.ReflTransGen.single (strip_change junk)) around2_spec
    (by decide) ⟨by decide, by decide, 1, by decide⟩ ⟨by decide, by decide, 1, by decide⟩
    ⟨(⟨10, ![0, 2, 4], junk⟩, 2), by simp [around2], (edgeOf_iff _ _ _ _).2 (by decide)⟩
    ⟨(⟨5, ![3, 2, 5], ![1, 0, 2]⟩, 2), by simp [around2], (edgeOf_iff _ _ _ _).2 (by decide)⟩
    (by
      rintro o h0 h3 ⟨-, hf, m, hm⟩
      have ho : o < 4 := by simpa [joined] using hf
      have : o = 1 ∨ o = 2 := by omega
      rcases this with rfl | rfl <;> revert hm <;> simp [joined, sortIds])
  have hn : removeFromInterface (joined junk) 2 (around2 junk) = none :=
    C164_new_face_false _ _ _ around2_spec ⟨10, ![0, 2, 4], junk⟩ (by simp [joined]) ⟨1, rfl⟩ 0 (by decide)
  rw [hn] at h1
  simp at h1

/-- After the vertex 1 was removed, the faces at the vertex 3 are still old ones (hypothesis of C165 with an earlier request), and its interface
element is found. -/
example : Settled strip ∧ Relation.ReflTransGen Change strip (joined junk) ∧ (∀ f ∈ (joined junk).faces, (∃ j, f.vtx j = 3) → f.name < strip.fresh) ∧
    (incidentInterface (joined junk) [(⟨2, ![2, 3, 4], ![0, 1, 2]⟩, 2), (⟨5, ![3, 2, 5], ![1, 0, 2]⟩, 1), (⟨8, ![5, 9, 3], ![2, 0, 1]⟩, 0),
      (⟨9, ![3, 9, 4], ![0, 2, 1]⟩, 1)]).map (·.map fun e => e.1.name) = some [2] :=
  ⟨strip_settled, Relation.ReflTransGen.single (strip_change junk), by decide, by decide +kernel⟩

/-- With the array of an old face in the memory of the new ones the second removal happens to work. -/
example : removeFromInterface (joined ![0, 1, 2]) 2 (around2 ![0, 1, 2]) = some ([([0, 3], 1)], some (0, 3)) := by decide +kernel

end Verif.NewFaces
