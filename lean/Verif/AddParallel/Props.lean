import Verif.AddParallel.Model

/-!
# Indices of interface elements added on several processes
-/

namespace Verif.AddParallel

open Verif Parallel InterfaceIndexSet IndexSet

theorem elements_filter {d : Nat} {verts : Nat → List Nat} {l : List Nat} (h : Elements d (l.map verts)) (p : Nat → Bool) :
    Elements d ((l.filter p).map verts) := by
  have hs : ((l.filter p).map verts).Sublist (l.map verts) := List.Sublist.map _ List.filter_sublist
  exact ⟨fun e he => h.length e (hs.subset he), fun e he => h.nodup e (hs.subset he), h.distinct.sublist hs⟩

/-- An element has an index exactly if it is visited. -/
theorem index_iff {d : Nat} (hd : d = 2 ∨ d = 3) {verts : Nat → List Nat} {l : List Nat} (h : Elements d (l.map verts)) (p : Nat → Bool)
    {s : State} (hs : update d ((l.filter p).map verts) = some s) {e : Nat} (he : e ∈ l) :
    (∃ i, indexElement s (verts e) = some i) ↔ p e = true := by
  have hf := elements_filter h p
  obtain ⟨s', hs', hinv⟩ := update_inv hd _ hf
  rw [hs] at hs'
  cases hs'
  constructor
  · rintro ⟨i, hi⟩
    by_cases hv : ∀ v ∈ verts e, ∃ f ∈ (l.filter p).map verts, v ∈ f
    · obtain ⟨f, hf1, hf2⟩ := (indexElement_iff (by omega) hf hinv (h.length _ (List.mem_map_of_mem he))
        (h.nodup _ (List.mem_map_of_mem he)) hv i).1 hi
      obtain ⟨x, hx, rfl⟩ := List.mem_map.1 (List.mem_of_getElem? hf1)
      obtain ⟨hxl, hxp⟩ := List.mem_filter.1 hx
      by_cases hxe : x = e
      · exact hxe ▸ hxp
      · exfalso
        have hp : l.Pairwise fun a b => ¬ (verts a).Perm (verts b) := List.pairwise_map.1 h.distinct
        rw [List.pairwise_iff_getElem] at hp
        obtain ⟨a, ha, rfl⟩ := List.mem_iff_getElem.1 hxl
        obtain ⟨b, hb, rfl⟩ := List.mem_iff_getElem.1 he
        rcases Nat.lt_trichotomy a b with hab | rfl | hab
        · exact hp a b ha hb hab hf2
        · exact hxe rfl
        · exact hp b a hb ha hab hf2.symm
    · exfalso
      push Not at hv
      obtain ⟨v, hv, hno⟩ := hv
      have hnone := (C22_vertices hd _ hf hs).2 v hno
      unfold indexElement at hi
      cases hm : (verts e).mapM (Map.find s.vert) with
      | none => rw [hm] at hi; simp at hi
      | some ids =>
        have h2 := (mapM_iff _ _ _).1 hm
        obtain ⟨j, -, hj⟩ := Ixs.mem_left (vert := s.vert) h2 hv
        unfold indexVertex at hnone
        rw [hnone] at hj
        cases hj
  · intro hp
    obtain ⟨s'', hs'', -, hn, -⟩ := C22_elements hd _ hf
    rw [hs] at hs''
    cases hs''
    obtain ⟨i, -, hi⟩ := hn.1 (verts e) (List.mem_map_of_mem (List.mem_filter.2 ⟨he, hp⟩))
    exact ⟨i, hi⟩

theorem contains_all (p : Int) : PartIter.contains .all p = true ↔ p ≠ -1 := by
  unfold PartIter.contains
  split <;> simp_all

/-- The indices of the interface grid: defined exactly for the elements that are not absent from the process. -/
theorem setIndices_spec {d : Nat} (hd : d = 2 ∨ d = 3) (size : Nat) {verts : Nat → List Nat} {m : Mesh} (h : Elements d (m.ielems.map verts)) (s : Part) :
    ∃ ix, setIndices d size verts m s = some ix ∧ (∀ e ∈ m.ielems, (∃ i, indexElement ix (verts e) = some i) ↔ partition size s e ≠ -1) ∧
      IsNumbering (indexElement ix) {f | ∃ e ∈ m.ielems, partition size s e ≠ -1 ∧ f = verts e} ix.elementCount := by
  unfold setIndices visited
  rw [Iterate.rangeFor_eq_filter]
  obtain ⟨ix, hix, -, hn, -⟩ := C22_elements hd _ (elements_filter h fun e => PartIter.contains .all (partition size s e))
  refine ⟨ix, hix, fun e he => ?_, ?_⟩
  · rw [index_iff hd h _ hix he, contains_all]
  · convert hn using 1
    ext f
    simp only [Set.mem_setOf_eq, List.mem_map, List.mem_filter, contains_all]
    constructor
    · rintro ⟨e, h1, h2, rfl⟩; exact ⟨e, ⟨h1, h2⟩, rfl⟩
    · rintro ⟨e, ⟨h1, h2⟩, rfl⟩; exact ⟨e, h1, h2, rfl⟩

/-- C167 on one process: after `addInterface` every interface element, old or new, has an index, and the indices are consecutive. -/
theorem C167_serial {d : Nat} (hd : d = 2 ∨ d = 3) (me : Nat) {verts : Nat → List Nat} {m : Mesh} (h : Elements d (m.ielems.map verts)) (s : Part) :
    ∃ p, addInterface d 1 me verts m s = some p ∧
      IsNumbering (indexElement p.index) {f | ∃ e ∈ m.ielems, f = verts e} p.index.elementCount := by
  obtain ⟨ix, h1, -, h3⟩ := setIndices_spec hd 1 h s
  refine ⟨_, by rw [addInterface, h1]; rfl, ?_⟩
  simpa [partition] using h3

/-- C167 on several processes: after `loadBalance()` exactly those interface elements have an index that the process owns or that are ghosts: those
with the inside on the process, with the outside on the process, or meeting an element of the process; the indices are consecutive. -/
theorem C167_balanced {d : Nat} (hd : d = 2 ∨ d = 3) {size me : Nat} (hsize : size ≠ 1) {verts : Nat → List Nat} {m : Mesh} (hw : m.WF)
    (h : Elements d (m.ielems.map verts)) (s : Part) :
    ∃ p, loadBalance d size me verts m s = some p ∧
      (∀ e ∈ m.ielems, (∃ i, indexElement p.index (verts e) = some i) ↔ m.rank (m.ins e) = me ∨ m.Across e me ∨ m.Meets e me) ∧
      IsNumbering (indexElement p.index) {f | ∃ e ∈ m.ielems, (m.rank (m.ins e) = me ∨ m.Across e me ∨ m.Meets e me) ∧ f = verts e} p.index.elementCount := by
  have key : ∀ e ∈ m.ielems, partition size (compute m me) e ≠ -1 ↔ m.rank (m.ins e) = me ∨ m.Across e me ∨ m.Meets e me := by
    intro e he
    rw [partition, if_neg hsize]
    have h0 := C35_interface_interior hw me he
    have h2 := C35_interface_ghost hw me he
    by_cases hr : m.rank (m.ins e) = me
    · rw [h0.2 hr]
      exact iff_of_true (by decide) (Or.inl hr)
    · have hc : (compute m me).ipart e = 2 ∨ (compute m me).ipart e = -1 := by
        rw [(c_inv hw me).rest.2.2]
        exact (g_inv hw me).iother e he hr
      constructor
      · intro hne
        rcases hc with hc | hc
        · exact Or.inr (h2.1 hc).2
        · exact absurd hc hne
      · intro hor
        rw [h2.2 ⟨hr, hor.resolve_left hr⟩]
        decide
  obtain ⟨ix, h1, h2, h3⟩ := setIndices_spec hd size h (compute m me)
  refine ⟨⟨compute m me, ix⟩, by rw [loadBalance, if_neg hsize, h1]; rfl, fun e he => ?_, ?_⟩
  · rw [← key e he]
    exact h2 e he
  · convert h3 using 1
    ext f
    simp only [Set.mem_setOf_eq]
    constructor
    · rintro ⟨e, he, h4, rfl⟩; exact ⟨e, he, (key e he).2 h4, rfl⟩
    · rintro ⟨e, he, h4, rfl⟩; exact ⟨e, he, (key e he).1 h4, rfl⟩

/-- C166 is false, whatever the grid: on several processes the new element, for which no partition was stored before, never has an index after
`addInterface`, not even on the process that owns it. -/
theorem C166_never_false {d : Nat} (hd : d = 2 ∨ d = 3) {size me : Nat} (hsize : size ≠ 1) {verts : Nat → List Nat} {m : Mesh}
    (h : Elements d (m.ielems.map verts)) (s : Part) {e : Nat} (he : e ∈ m.ielems) (hnew : s.ipart e = -1) {p : Proc}
    (hp : addInterface d size me verts m s = some p) : indexElement p.index (verts e) = none := by
  obtain ⟨ix, h1, h2, -⟩ := setIndices_spec hd size h s
  rw [addInterface, h1] at hp
  cases hp
  by_contra hne
  obtain ⟨i, hi⟩ := Option.ne_none_iff_exists'.1 hne
  exact (h2 e he).1 ⟨i, hi⟩ (by rw [partition, if_neg hsize, hnew])

/-! ## Two triangles on two processes -/

/-- Two triangles on two processes without interface. -/
def bare : Mesh := { PartIter.pair with ielems := [], joints := [] }

/-- The vertices of the common facet. -/
def common : Nat → List Nat := fun _ => [1, 2]

example : Elements 2 (PartIter.pair.ielems.map common) ∧ PartIter.pair.WF :=
  ⟨⟨by decide, by decide, by decide⟩, PartIter.pair_wf⟩

/-- The element of the process 0: interior, but without index; of the process 1: ghost, but without index. -/
theorem bare_added : ∀ me < 2, (addInterface 2 2 me common PartIter.pair (compute bare me)).map (fun p => (p.part.ipart 0, indexElement p.index [1, 2])) =
    some (if me = 0 then 0 else 2, none) := by
  intro me hme
  have : me = 0 ∨ me = 1 := by omega
  rcases this with rfl | rfl <;> simp only [addInterface, setIndices, visited, Iterate.rangeFor_eq_filter] <;> decide

/-- After `loadBalance()` the element has its index. -/
example : ∀ me < 2, (loadBalance 2 2 me common PartIter.pair (compute bare me)).map (fun p => (p.part.ipart 0, indexElement p.index [1, 2])) =
    some (if me = 0 then 0 else 2, some 0) := by
  intro me hme
  have : me = 0 ∨ me = 1 := by omega
  rcases this with rfl | rfl <;> simp only [loadBalance, setIndices, visited, Iterate.rangeFor_eq_filter] <;> decide

/-- C166 is false: two triangles on two processes, the common facet is added to the interface. -/
theorem C166_false : ¬ ∀ (d size me : Nat) (verts : Nat → List Nat) (m m' : Mesh) (p : Proc), (d = 2 ∨ d = 3) → me < size → m.WF → m'.WF →
    (∀ e ∈ m.ielems, e ∈ m'.ielems) → Elements d (m'.ielems.map verts) → addInterface d size me verts m' (compute m me) = some p →
    ∀ e ∈ m'.ielems, p.part.ipart e = 0 → ∃ i, indexElement p.index (verts e) = some i := by
  intro H
  have h0 := bare_added 0 (by decide)
  cases hp : addInterface 2 2 0 common PartIter.pair (compute bare 0) with
  | none => rw [hp] at h0; simp at h0
  | some p =>
    rw [hp] at h0
    simp only [Option.map_some, if_true, Option.some.injEq, Prod.mk.injEq] at h0
    obtain ⟨i, hi⟩ := H 2 2 0 common bare PartIter.pair p (Or.inl rfl) (by decide) ⟨by simp [bare], by simp [bare]⟩ PartIter.pair_wf (by simp [bare])
      ⟨by decide, by decide, by decide⟩ hp 0 (by decide) h0.1
    rw [show common 0 = [1, 2] from rfl, h0.2] at hi
    cases hi

end Verif.AddParallel
