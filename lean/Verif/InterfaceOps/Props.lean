import Mathlib.Data.List.Nodup
import Mathlib.Data.List.Induction
import Mathlib.Logic.Relation
import Verif.InterfaceOps.Model

/-!
# C26, C27: splitting a segment and removing an interface vertex
-/

namespace Verif.InterfaceOps

open Verif RefElem

theorem sort_eq_iff {l m : List Nat} : sortIds l = sortIds m ↔ l.Perm m := by
  constructor
  · intro h
    exact (sortIds_perm l).symm.trans (h ▸ sortIds_perm m)
  · intro h
    exact ((sortIds_perm l).trans (h.trans (sortIds_perm m).symm)).eq_of_pairwise
      (fun _ _ _ _ h1 h2 => Nat.le_antisymm h1 h2) (sortIds_sorted l) (sortIds_sorted m)

theorem key_eq_iff {a b c d : Nat} : key a b = key c d ↔ (a = c ∧ b = d) ∨ (a = d ∧ b = c) := by
  unfold key
  rw [sort_eq_iff]
  constructor
  · intro h
    have ha : a ∈ [c, d] := h.subset (by simp)
    have hb : b ∈ [c, d] := h.subset (by simp)
    have hc : c ∈ [a, b] := h.symm.subset (by simp)
    have hd : d ∈ [a, b] := h.symm.subset (by simp)
    simp only [List.mem_cons, List.not_mem_nil, or_false] at ha hb hc hd
    omega
  · rintro (⟨rfl, rfl⟩ | ⟨rfl, rfl⟩)
    · exact List.Perm.refl _
    · exact List.Perm.swap _ _ _

theorem key_comm (a b : Nat) : key a b = key b a := key_eq_iff.2 (Or.inr ⟨rfl, rfl⟩)

theorem mem_key {v a b : Nat} : v ∈ key a b ↔ v = a ∨ v = b := by
  unfold key
  rw [(sortIds_perm [a, b]).mem_iff]
  simp

theorem sort_key (a b : Nat) : sortIds (key a b) = key a b := by
  unfold key
  rw [sort_eq_iff]
  exact sortIds_perm _

theorem newSegments_two (a b id : Nat) : newSegments 2 (key a b) id = some [sortIds (id :: [(key a b)[0]?.getD 0]),
    sortIds (id :: [(key a b)[1]?.getD 0])] := by
  have hlen : (key a b).length = 2 := (sortIds_perm [a, b]).length_eq
  match h : key a b, hlen with
  | [x, y], _ => simp [newSegments, List.range_succ]

theorem newSegments_key (a b id : Nat) : newSegments 2 (key a b) id = some [key id a, key id b] ∨
    newSegments 2 (key a b) id = some [key id b, key id a] := by
  rw [newSegments_two]
  have hlen : (key a b).length = 2 := (sortIds_perm [a, b]).length_eq
  have hp : (key a b).Perm [a, b] := sortIds_perm [a, b]
  match h : key a b, hlen with
  | [x, y], _ =>
    rw [h] at hp
    have ha : a ∈ [x, y] := hp.symm.subset (by simp)
    have hx : x ∈ [a, b] := hp.subset (by simp)
    have hy : y ∈ [a, b] := hp.subset (by simp)
    have hb : b ∈ [x, y] := hp.symm.subset (by simp)
    simp only [List.mem_cons, List.not_mem_nil, or_false] at ha hb hx hy
    by_cases hax : a = x
    · have : b = y := by omega
      subst hax; subst this
      left
      simp [key]
    · have h1 : a = y := by omega
      have h2 : b = x := by omega
      subst h1; subst h2
      right
      simp [key]

/-- The segments after splitting the edge `a b` at the new vertex `id`. -/
theorem insertInInterface_spec (s : State) (a b id : Nat) (hfresh : ∀ e ∈ s.segs, id ∉ e.1) :
    ∃ s', insertInInterface 2 s [a, b] id = some s' ∧ s'.edges = s.edges ∧ s'.next = s.next ∧
      (∀ v, s'.flag v = true ↔ s.flag v = true ∨ v = id) ∧
      ∀ k, Map.find s'.segs k =
        if k = key id a ∨ k = key id b then some ((Map.find s.segs (key a b)).getD 0)
        else if k = key a b then none else Map.find s.segs k := by
  have hnone : ∀ x m, (∀ e ∈ m, e ∈ s.segs) → Map.find m (key id x) = none := by
    intro x m hm
    rw [Map.find_eq_none]
    intro y hy
    exact hfresh _ (hm _ hy) (mem_key.2 (Or.inl rfl))
  have hsub : ∀ e ∈ Map.erase s.segs (key a b), e ∈ s.segs := fun e he => List.mem_of_mem_filter he
  have main : ∀ x y, (∀ k, (k = key id x ∨ k = key id y) ↔ (k = key id a ∨ k = key id b)) →
      ∀ k, Map.find (Map.insert (Map.insert (Map.erase s.segs (key a b)) (key id x)
        ((Map.find s.segs (key a b)).getD 0)) (key id y) ((Map.find s.segs (key a b)).getD 0)) k =
        if k = key id a ∨ k = key id b then some ((Map.find s.segs (key a b)).getD 0)
        else if k = key a b then none else Map.find s.segs k := by
    intro x y hxy k
    simp only [← hxy k]
    have h1 := Map.find_insert_new (x := (Map.find s.segs (key a b)).getD 0) (hnone x _ hsub)
    by_cases hy : Map.find (Map.insert (Map.erase s.segs (key a b)) (key id x)
        ((Map.find s.segs (key a b)).getD 0)) (key id y) = none
    · rw [Map.find_insert_new hy]
      by_cases hk : k = key id y
      · simp [hk]
      · rw [if_neg hk, h1]
        by_cases hk' : k = key id x
        · simp [hk']
        · simp only [hk, hk', or_self, if_false, Map.find_erase]
    · obtain ⟨m, hm⟩ := Option.ne_none_iff_exists'.1 hy
      rw [Map.insert_old hm, h1]
      have hxy' : key id y = key id x := by
        by_contra hc
        rw [h1, if_neg hc, hnone y _ hsub] at hm
        simp at hm
      by_cases hk' : k = key id x
      · simp [hk']
      · simp only [hk', hxy', or_self, if_false, Map.find_erase]
  have hs : sortIds [a, b] = key a b := rfl
  have hflag : ∀ v, (if v = id then true else s.flag v) = true ↔ s.flag v = true ∨ v = id := by
    intro v
    by_cases hv : v = id <;> simp [hv]
  rcases newSegments_key a b id with h | h
  · refine ⟨{ s with
        segs := Map.insert (Map.insert (Map.erase s.segs (key a b)) (key id a) ((Map.find s.segs (key a b)).getD 0)) (key id b)
          ((Map.find s.segs (key a b)).getD 0)
        flag := fun v => if v = id then true else s.flag v }, by rw [insertInInterface, hs, h]; rfl, rfl, rfl, hflag, ?_⟩
    exact main a b (fun k => Iff.rfl)
  · refine ⟨{ s with
        segs := Map.insert (Map.insert (Map.erase s.segs (key a b)) (key id b) ((Map.find s.segs (key a b)).getD 0)) (key id a)
          ((Map.find s.segs (key a b)).getD 0)
        flag := fun v => if v = id then true else s.flag v }, by rw [insertInInterface, hs, h]; rfl, rfl, rfl, hflag, ?_⟩
    exact main b a (fun k => or_comm)

/-- C26: splitting the interface segment with end points `a`, `b` and marker `m` at a new vertex replaces it by the two
segments that join the end points with the new vertex, both with the marker `m`, makes the new vertex an interface vertex,
and changes no other segment, marker or vertex. `hfresh` says that the id of the new vertex is new; see `C111_facets_partial`
for reachable states. -/
theorem C26_split (s : State) (a b id m : Nat) (hseg : Map.find s.segs (sortIds [a, b]) = some m)
    (hfresh : ∀ e ∈ s.segs, id ∉ e.1) :
    ∃ s', insertInInterface 2 s [a, b] id = some s' ∧
      Map.find s'.segs (sortIds [a, b]) = none ∧
      Map.find s'.segs (sortIds [a, id]) = some m ∧ Map.find s'.segs (sortIds [id, b]) = some m ∧
      (∀ k, ¬ k.Perm [a, b] → ¬ k.Perm [a, id] → ¬ k.Perm [id, b] →
        Map.find s'.segs (sortIds k) = Map.find s.segs (sortIds k)) ∧
      s'.flag id = true ∧ (∀ v, v ≠ id → s'.flag v = s.flag v) := by
  obtain ⟨s', h1, -, -, h2, h3⟩ := insertInInterface_spec s a b id hfresh
  have hm : (Map.find s.segs (key a b)).getD 0 = m := by
    rw [show key a b = sortIds [a, b] from rfl, hseg]; rfl
  have hida : id ≠ a ∧ id ≠ b := by
    have hmem := hfresh _ (Map.mem_of_find hseg)
    have : id ∉ key a b := hmem
    rw [mem_key] at this
    omega
  refine ⟨s', h1, ?_, ?_, ?_, ?_, ?_, ?_⟩
  · rw [h3, if_neg, if_pos (show sortIds [a, b] = key a b from rfl)]
    rintro (h | h)
    · have := (key_eq_iff (a := a) (b := b)).1 h; omega
    · have := (key_eq_iff (a := a) (b := b)).1 h; omega
  · rw [h3, if_pos (Or.inl ?_), hm]
    exact sort_eq_iff.2 (List.Perm.swap _ _ _)
  · rw [h3, if_pos (Or.inr (show sortIds [id, b] = key id b from rfl)), hm]
  · intro k hk1 hk2 hk3
    rw [h3, if_neg, if_neg]
    · exact fun h => hk1 (sort_eq_iff.1 h)
    · rintro (h | h)
      · exact hk2 ((sort_eq_iff.1 h).trans (List.Perm.swap _ _ _))
      · exact hk3 (sort_eq_iff.1 h)
  · exact (h2 id).2 (Or.inr rfl)
  · intro v hv
    have := h2 v
    simp only [hv, or_false] at this
    exact Bool.eq_iff_iff.2 this

/-- Splitting the segment 2 5 of an interface with three segments. -/
def exState : State := ofExplicit [key 1 2, key 2 5, key 5 7, key 1 5, key 2 7, key 1 3, key 2 3]
  [(key 1 2, 4), (key 2 5, 9), (key 5 7, 4)] 8

example : Map.find exState.segs (sortIds [5, 2]) = some 9 ∧ (∀ e ∈ exState.segs, 8 ∉ e.1) := by
  refine ⟨by decide, by decide⟩

/-- In 3D `insertInInterface_` receives an edge, that is two vertex ids, and reads `ids[2]`: undefined for every interface
edge. -/
theorem C26_undefined_3d (s : State) (a b id : Nat) : insertInInterface 3 s [a, b] id = none := by
  have hlen : (sortIds [a, b]).length = 2 := (sortIds_perm [a, b]).length_eq
  unfold insertInInterface
  match h : sortIds [a, b], hlen with
  | [x, y], _ => simp [newSegments, List.range_succ]

/-! ## Removal -/

/-- What the loop over the incident segments does if the other end points are different. -/
theorem collect_spec (segs : List (List Nat × Nat)) (v : Nat) (others : List Nat) (hnd : others.Nodup) :
    (∀ k, Map.find (collect segs v others).1 k = if ∃ o ∈ others, k = key v o then none else Map.find segs k) ∧
      (collect segs v others).2.2 = others.filter (fun o => (Map.find segs (key v o)).isSome) ∧
      ((collect segs v others).2.2 = [] ∧ (collect segs v others).2.1 = 1 ∨
        ∃ o ∈ (collect segs v others).2.2, Map.find segs (key v o) = some (collect segs v others).2.1) := by
  induction others using List.reverseRecOn with
  | nil => simp [collect]
  | append_singleton l o ih =>
    rw [List.nodup_append] at hnd
    obtain ⟨hl, -, hlo⟩ := hnd
    obtain ⟨h1, h2, h3⟩ := ih hl
    have hno : o ∉ l := fun h => hlo o h o (by simp) rfl
    have hfind : Map.find (collect segs v l).1 (key v o) = Map.find segs (key v o) := by
      rw [h1, if_neg]
      rintro ⟨o', ho', hk⟩
      rcases key_eq_iff.1 hk with h | h
      · exact hno (h.2 ▸ ho')
      · have : o = o' := by omega
        exact hno (this ▸ ho')
    have hstep : collect segs v (l ++ [o]) = match Map.find (collect segs v l).1 (key v o) with
        | some m => (Map.erase (collect segs v l).1 (key v o), m, (collect segs v l).2.2 ++ [o])
        | none => collect segs v l := by
      unfold collect
      rw [List.foldl_append]
      rfl
    rw [hfind] at hstep
    cases hm : Map.find segs (key v o) with
    | none =>
      rw [hm] at hstep
      simp only at hstep
      rw [hstep]
      refine ⟨?_, ?_, h3⟩
      · intro k
        rw [h1]
        by_cases hex : ∃ o' ∈ l, k = key v o'
        · obtain ⟨o', ho', hk⟩ := hex
          rw [if_pos ⟨o', ho', hk⟩, if_pos ⟨o', List.mem_append_left _ ho', hk⟩]
        · rw [if_neg hex]
          by_cases hk : k = key v o
          · rw [if_pos ⟨o, by simp, hk⟩, hk, hm]
          · rw [if_neg]
            rintro ⟨o', ho', hk'⟩
            rcases List.mem_append.1 ho' with h | h
            · exact hex ⟨o', h, hk'⟩
            · simp only [List.mem_singleton] at h
              exact hk (h ▸ hk')
      · rw [h2, List.filter_append]
        simp [hm]
    | some m =>
      rw [hm] at hstep
      simp only at hstep
      rw [hstep]
      refine ⟨?_, ?_, Or.inr ⟨o, by simp, hm⟩⟩
      · intro k
        simp only [Map.find_erase]
        by_cases hk : k = key v o
        · rw [if_pos hk, if_pos ⟨o, by simp, hk⟩]
        · rw [if_neg hk, h1]
          by_cases hex : ∃ o' ∈ l, k = key v o'
          · obtain ⟨o', ho', hk'⟩ := hex
            rw [if_pos ⟨o', ho', hk'⟩, if_pos ⟨o', List.mem_append_left _ ho', hk'⟩]
          · rw [if_neg hex, if_neg]
            rintro ⟨o', ho', hk'⟩
            rcases List.mem_append.1 ho' with h | h
            · exact hex ⟨o', h, hk'⟩
            · simp only [List.mem_singleton] at h
              exact hk (h ▸ hk')
      · simp only
        rw [h2, List.filter_append]
        simp [hm]

/-- The other end points of the segments at `v`, as the user sees them: facets at `v` that are interface segments. -/
def Incident (s : State) (v o : Nat) : Prop := o ≠ v ∧ sortIds [v, o] ∈ s.edges ∧ ∃ m, Map.find s.segs (sortIds [v, o]) = some m

/-- What is assumed of the state: segments are facets with flagged vertices (an invariant, see `C111_facets_partial`). -/
structure Ok (s : State) : Prop where
  pair : ∀ e ∈ s.segs, ∃ a b, a ≠ b ∧ e.1 = key a b ∧ s.flag a = true ∧ s.flag b = true ∧ key a b ∈ s.edges
  nodup : (s.segs.map Prod.fst).Nodup
  edges : ∀ e ∈ s.edges, ∃ a b, a ≠ b ∧ e = key a b ∧ a < s.next ∧ b < s.next

theorem Ok.flags {s : State} (h : Ok s) {a b m : Nat} (hf : Map.find s.segs (key a b) = some m) :
    a ≠ b ∧ s.flag a = true ∧ s.flag b = true ∧ key a b ∈ s.edges := by
  obtain ⟨x, y, hxy, hk, hx, hy, he⟩ := h.pair _ (Map.mem_of_find hf)
  simp only at hk
  rcases key_eq_iff.1 hk with ⟨rfl, rfl⟩ | ⟨rfl, rfl⟩
  · exact ⟨hxy, hx, hy, hk ▸ he⟩
  · exact ⟨hxy.symm, hy, hx, hk ▸ he⟩

theorem Ok.fresh {s : State} (h : Ok s) {v : Nat} (hv : s.next ≤ v) : ∀ e ∈ s.segs, v ∉ e.1 := by
  intro e he hm
  obtain ⟨a, b, hab, hk, -, -, hE⟩ := h.pair e he
  obtain ⟨x, y, -, hk', hx, hy⟩ := h.edges _ hE
  rw [hk, hk', mem_key] at hm
  omega

theorem filter_incident {s : State} (h : Ok s) {v : Nat} {star : List Nat} (hstar : Star s.edges v star) :
    (star.filter fun o => isInterfaceBulk s [v, o]).Nodup ∧
      (∀ o, o ∈ (star.filter fun o => isInterfaceBulk s [v, o]) ↔ Incident s v o) ∧
      (star.filter fun o => isInterfaceBulk s [v, o]).filter (fun o => (Map.find s.segs (key v o)).isSome) =
        star.filter fun o => isInterfaceBulk s [v, o] := by
  refine ⟨hstar.1.filter _, ?_, ?_⟩
  · intro o
    simp only [List.mem_filter, hstar.2, isInterfaceBulk, List.all_cons, List.all_nil, Bool.and_true, Bool.and_eq_true]
    constructor
    · rintro ⟨⟨hne, he⟩, ⟨-, -⟩, hm⟩
      exact ⟨hne, he, Option.isSome_iff_exists.1 hm⟩
    · rintro ⟨hne, he, m, hm⟩
      obtain ⟨-, h1, h2, -⟩ := h.flags hm
      exact ⟨⟨hne, he⟩, ⟨h1, h2⟩, by rw [hm]; rfl⟩
  · rw [List.filter_eq_self]
    intro o ho
    simp only [List.mem_filter, isInterfaceBulk, Bool.and_eq_true] at ho
    exact ho.2.2

/-- C27, regular vertices: removing an interface vertex with exactly the two incident segments `v a` and `v b` replaces
them by the segment `a b`, which inherits the marker of one of them (if `a b` was a segment before, it keeps its marker).
All other segments are unchanged, and the host grid is remeshed between `a` and `b`. -/
theorem C27_join (s : State) (hok : Ok s) (v a b : Nat) (star : List Nat) (hstar : Star s.edges v star) (hab : a ≠ b)
    (hinc : ∀ o, Incident s v o ↔ o = a ∨ o = b) :
    ∃ s' x y, removeFromInterface s v star = (s', some (x, y)) ∧ ((x = a ∧ y = b) ∨ (x = b ∧ y = a)) ∧
      Map.find s'.segs (sortIds [v, a]) = none ∧ Map.find s'.segs (sortIds [v, b]) = none ∧
      (∃ m, Map.find s'.segs (sortIds [a, b]) = some m ∧
        (Map.find s.segs (sortIds [a, b]) = some m ∨ Map.find s.segs (sortIds [a, b]) = none ∧
          (Map.find s.segs (sortIds [v, a]) = some m ∨ Map.find s.segs (sortIds [v, b]) = some m))) ∧
      (∀ k, ¬ k.Perm [v, a] → ¬ k.Perm [v, b] → ¬ k.Perm [a, b] →
        Map.find s'.segs (sortIds k) = Map.find s.segs (sortIds k)) ∧
      s'.flag = s.flag ∧ s'.edges = s.edges ∧ s'.next = s.next := by
  obtain ⟨f1, f2, f3⟩ := filter_incident hok hstar
  obtain ⟨c1, c2, c3⟩ := collect_spec s.segs v _ f1
  rw [f3] at c2
  have hva : a ≠ v := ((hinc a).2 (Or.inl rfl)).1
  have hvb : b ≠ v := ((hinc b).2 (Or.inr rfl)).1
  have hlist : (star.filter fun o => isInterfaceBulk s [v, o]) = [a, b] ∨
      (star.filter fun o => isInterfaceBulk s [v, o]) = [b, a] := by
    have hp : (star.filter fun o => isInterfaceBulk s [v, o]).Perm [a, b] := by
      rw [List.perm_ext_iff_of_nodup f1 (by simp [hab])]
      intro o
      rw [f2, hinc]
      simp
    match h : (star.filter fun o => isInterfaceBulk s [v, o]), hp.length_eq with
    | [x, y], _ =>
      rw [h] at hp
      have ha : a ∈ [x, y] := hp.symm.subset (by simp)
      have hb : b ∈ [x, y] := hp.symm.subset (by simp)
      simp only [List.mem_cons, List.not_mem_nil, or_false] at ha hb
      by_cases hax : a = x
      · have : b = y := by omega
        subst hax; subst this
        exact Or.inl rfl
      · have h1 : a = y := by omega
        have h2 : b = x := by omega
        subst h1; subst h2
        exact Or.inr rfl
  -- the segments at v
  have hmem : ∀ k, (∃ o ∈ (star.filter fun o => isInterfaceBulk s [v, o]), k = key v o) ↔ k = key v a ∨ k = key v b := by
    intro k
    constructor
    · rintro ⟨o, ho, hk⟩
      rcases (hinc o).1 ((f2 o).1 ho) with rfl | rfl
      · exact Or.inl hk
      · exact Or.inr hk
    · rintro (hk | hk)
      · exact ⟨a, (f2 a).2 ((hinc a).2 (Or.inl rfl)), hk⟩
      · exact ⟨b, (f2 b).2 ((hinc b).2 (Or.inr rfl)), hk⟩
  simp only [hmem] at c1
  have hkab : ¬ (key a b = key v a ∨ key a b = key v b) := by
    rintro (h | h)
    · have := key_eq_iff.1 h; omega
    · have := key_eq_iff.1 h; omega
  have hfab : Map.find (collect s.segs v (star.filter fun o => isInterfaceBulk s [v, o])).1 (key a b) =
      Map.find s.segs (key a b) := by
    rw [c1, if_neg hkab]
  have hmark : Map.find s.segs (key v a) = some (collect s.segs v (star.filter fun o => isInterfaceBulk s [v, o])).2.1 ∨
      Map.find s.segs (key v b) = some (collect s.segs v (star.filter fun o => isInterfaceBulk s [v, o])).2.1 := by
    rcases c3 with ⟨hnil, -⟩ | ⟨o, ho, hm⟩
    · rw [c2] at hnil
      rcases hlist with h | h <;> rw [h] at hnil <;> simp at hnil
    · rw [c2] at ho
      rcases (hinc o).1 ((f2 o).1 ho) with rfl | rfl
      · exact Or.inl hm
      · exact Or.inr hm
  have main : ∀ x y, key x y = key a b →
      let segs' := Map.insert (collect s.segs v (star.filter fun o => isInterfaceBulk s [v, o])).1 (key x y)
        (collect s.segs v (star.filter fun o => isInterfaceBulk s [v, o])).2.1
      Map.find segs' (sortIds [v, a]) = none ∧ Map.find segs' (sortIds [v, b]) = none ∧
      (∃ m, Map.find segs' (sortIds [a, b]) = some m ∧
        (Map.find s.segs (sortIds [a, b]) = some m ∨ Map.find s.segs (sortIds [a, b]) = none ∧
          (Map.find s.segs (sortIds [v, a]) = some m ∨ Map.find s.segs (sortIds [v, b]) = some m))) ∧
      (∀ k, ¬ k.Perm [v, a] → ¬ k.Perm [v, b] → ¬ k.Perm [a, b] →
        Map.find segs' (sortIds k) = Map.find s.segs (sortIds k)) := by
    intro x y hxy
    simp only [hxy]
    refine ⟨?_, ?_, ?_, ?_⟩
    · rw [Map.find_insert_ne (by exact fun h => hkab (Or.inl h.symm)), c1, if_pos (Or.inl (show sortIds [v, a] = key v a from rfl))]
    · rw [Map.find_insert_ne (by exact fun h => hkab (Or.inr h.symm)), c1, if_pos (Or.inr (show sortIds [v, b] = key v b from rfl))]
    · cases hf : Map.find s.segs (key a b) with
      | none =>
        refine ⟨(collect s.segs v (star.filter fun o => isInterfaceBulk s [v, o])).2.1, ?_, Or.inr ⟨hf, hmark⟩⟩
        rw [Map.find_insert_new (by rw [hfab, hf]), if_pos (show sortIds [a, b] = key a b from rfl)]
      | some m =>
        refine ⟨m, ?_, Or.inl hf⟩
        rw [Map.insert_old (by rw [hfab, hf])]
        exact hfab.trans hf
    · intro k h1 h2 h3
      have hne : sortIds k ≠ key a b := fun h => h3 (sort_eq_iff.1 h)
      rw [Map.find_insert_ne hne, c1, if_neg]
      rintro (h | h)
      · exact h1 (sort_eq_iff.1 h)
      · exact h2 (sort_eq_iff.1 h)
  rcases hlist with h | h
  · refine ⟨_, a, b, by unfold removeFromInterface; rw [h] at c2; simp only [h, c2]; rfl, Or.inl ⟨rfl, rfl⟩, ?_⟩
    obtain ⟨m1, m2, m3, m4⟩ := main a b rfl
    rw [h] at m1 m2 m3 m4
    exact ⟨m1, m2, m3, m4, rfl, rfl, rfl⟩
  · refine ⟨_, b, a, by unfold removeFromInterface; rw [h] at c2; simp only [h, c2]; rfl, Or.inr ⟨rfl, rfl⟩, ?_⟩
    obtain ⟨m1, m2, m3, m4⟩ := main b a (key_comm b a)
    rw [h] at m1 m2 m3 m4
    exact ⟨m1, m2, m3, m4, rfl, rfl, rfl⟩

/-- Vertices joined by interface segments. -/
def Joined (s : State) : Nat → Nat → Prop := Relation.ReflTransGen fun x y => (Map.find s.segs (sortIds [x, y])).isSome

/-- C27, connectedness: vertices other than the removed one that were joined by segments stay joined. -/
theorem C27_connected (s : State) (hok : Ok s) (v a b : Nat) (star : List Nat) (hstar : Star s.edges v star) (hab : a ≠ b)
    (hinc : ∀ o, Incident s v o ↔ o = a ∨ o = b) (x y : Nat) (hx : x ≠ v) (hy : y ≠ v) (h : Joined s x y) :
    Joined (removeFromInterface s v star).1 x y := by
  obtain ⟨s', p, q, hr, -, -, -, ⟨m, hm, -⟩, hother, -, -, -⟩ := C27_join s hok v a b star hstar hab hinc
  rw [hr]
  have hva : a ≠ v := ((hinc a).2 (Or.inl rfl)).1
  have hvb : b ≠ v := ((hinc b).2 (Or.inr rfl)).1
  have hab' : Joined s' a b := Relation.ReflTransGen.single (by rw [hm]; rfl)
  have hba' : Joined s' b a := Relation.ReflTransGen.single (by
    rw [show sortIds [b, a] = sortIds [a, b] from key_comm b a, hm]; rfl)
  have hnb : ∀ o, (Map.find s.segs (sortIds [v, o])).isSome → o = a ∨ o = b := by
    intro o ho
    obtain ⟨m, hm⟩ := Option.isSome_iff_exists.1 ho
    obtain ⟨h1, -, -, h4⟩ := hok.flags hm
    exact (hinc o).1 ⟨h1.symm, h4, m, hm⟩
  have key' : ∀ z, Joined s x z → (z ≠ v → Joined s' x z) ∧ (z = v → Joined s' x a) := by
    intro z hz
    induction hz with
    | refl => exact ⟨fun _ => Relation.ReflTransGen.refl, fun h => absurd h hx⟩
    | tail _ hcd ih =>
      rename_i c d _
      constructor
      · intro hd
        by_cases hc : c = v
        · subst hc
          rcases hnb d hcd with rfl | rfl
          · exact ih.2 rfl
          · exact (ih.2 rfl).trans hab'
        · refine (ih.1 hc).trans ?_
          by_cases hp : [c, d].Perm [a, b]
          · have hk := sort_eq_iff.2 hp
            refine Relation.ReflTransGen.single ?_
            rw [hk, hm]; rfl
          · refine Relation.ReflTransGen.single ?_
            rw [hother [c, d] ?_ ?_ hp]
            · exact hcd
            · intro h
              have := (key_eq_iff (a := c) (b := d)).1 (sort_eq_iff.2 h)
              omega
            · intro h
              have := (key_eq_iff (a := c) (b := d)).1 (sort_eq_iff.2 h)
              omega
      · intro hd
        subst hd
        by_cases hc : c = d
        · exact ih.2 hc
        · rcases hnb c (by rw [show sortIds [d, c] = sortIds [c, d] from key_comm d c]; exact hcd) with rfl | rfl
          · exact ih.1 hc
          · exact (ih.1 hc).trans hba'
  exact (key' y h).1 hy

/-- The exact effect of requesting the removal of a tip or a junction: if the number of incident segments is not two, all
of them are erased and the host grid is not changed. -/
theorem C109_other_vertices (s : State) (hok : Ok s) (v : Nat) (star : List Nat) (hstar : Star s.edges v star)
    (hinc : ¬ ∃ a b, a ≠ b ∧ ∀ o, Incident s v o ↔ o = a ∨ o = b) :
    ∃ s', removeFromInterface s v star = (s', none) ∧ s'.flag = s.flag ∧ s'.edges = s.edges ∧ s'.next = s.next ∧
      ∀ k, ((∃ o, Incident s v o ∧ k = sortIds [v, o]) → Map.find s'.segs k = none) ∧
        ((¬ ∃ o, Incident s v o ∧ k = sortIds [v, o]) → Map.find s'.segs k = Map.find s.segs k) := by
  obtain ⟨f1, f2, f3⟩ := filter_incident hok hstar
  obtain ⟨c1, c2, -⟩ := collect_spec s.segs v _ f1
  rw [f3] at c2
  have hlen : ∀ x y, (star.filter fun o => isInterfaceBulk s [v, o]) ≠ [x, y] := by
    intro x y h
    rw [h] at f1 f2
    refine hinc ⟨x, y, by simpa using f1, fun o => ?_⟩
    rw [← f2]
    simp
  refine ⟨{ s with segs := (collect s.segs v (star.filter fun o => isInterfaceBulk s [v, o])).1 }, ?_, rfl, rfl, rfl, ?_⟩
  · unfold removeFromInterface
    simp only
    split
    · rename_i o o' h
      rw [c2] at h
      exact absurd h (hlen o o')
    · rfl
  · intro k
    simp only [c1]
    constructor
    · rintro ⟨o, ho, hk⟩
      rw [if_pos ⟨o, (f2 o).2 ho, hk⟩]
    · intro h
      rw [if_neg]
      rintro ⟨o, ho, hk⟩
      exact h ⟨o, (f2 o).1 ho, hk⟩

/-- What C109 says of tips and junctions can only be promised for vertices without segments. -/
theorem C109_unchanged_partial (s : State) (hok : Ok s) (v : Nat) (star : List Nat) (hstar : Star s.edges v star)
    (hinc : ∀ o, ¬ Incident s v o) :
    ∃ s', removeFromInterface s v star = (s', none) ∧ s'.flag = s.flag ∧ s'.edges = s.edges ∧
      ∀ k, Map.find s'.segs k = Map.find s.segs k := by
  obtain ⟨s', h1, h2, h3, -, h5⟩ := C109_other_vertices s hok v star hstar (by
    rintro ⟨a, b, -, h⟩
    exact hinc a ((h a).2 (Or.inl rfl)))
  refine ⟨s', h1, h2, h3, fun k => ?_⟩
  refine (h5 k).2 ?_
  rintro ⟨o, ho, -⟩
  exact hinc o ho

theorem ex_edge {k : List Nat} (h : k ∈ exState.edges) :
    k = key 1 2 ∨ k = key 2 5 ∨ k = key 5 7 ∨ k = key 1 5 ∨ k = key 2 7 ∨ k = key 1 3 ∨ k = key 2 3 := by
  simpa [exState, ofExplicit] using h

theorem ex_ok : Ok exState := by
  refine ⟨?_, by decide, ?_⟩
  · intro e he
    simp only [exState, ofExplicit, List.mem_cons, List.not_mem_nil, or_false] at he
    rcases he with rfl | rfl | rfl
    · exact ⟨1, 2, by decide, rfl, by decide, by decide, by decide⟩
    · exact ⟨2, 5, by decide, rfl, by decide, by decide, by decide⟩
    · exact ⟨5, 7, by decide, rfl, by decide, by decide, by decide⟩
  · intro e he
    rcases ex_edge he with rfl | rfl | rfl | rfl | rfl | rfl | rfl
    · exact ⟨1, 2, by decide, rfl, by decide, by decide⟩
    · exact ⟨2, 5, by decide, rfl, by decide, by decide⟩
    · exact ⟨5, 7, by decide, rfl, by decide, by decide⟩
    · exact ⟨1, 5, by decide, rfl, by decide, by decide⟩
    · exact ⟨2, 7, by decide, rfl, by decide, by decide⟩
    · exact ⟨1, 3, by decide, rfl, by decide, by decide⟩
    · exact ⟨2, 3, by decide, rfl, by decide, by decide⟩

theorem ex_star {v : Nat} {star : List Nat} (hnd : star.Nodup) (h1 : ∀ o ∈ star, o ≠ v ∧ key v o ∈ exState.edges)
    (h2 : ∀ o < 8, o ≠ v → key v o ∈ exState.edges → o ∈ star) : Star exState.edges v star := by
  refine ⟨hnd, fun o => ⟨h1 o, fun ⟨ho, he⟩ => ?_⟩⟩
  refine h2 o ?_ ho he
  have hm : o ∈ key v o := mem_key.2 (Or.inr rfl)
  rcases ex_edge he with h | h | h | h | h | h | h <;> rw [h, mem_key] at hm <;> omega

/-- Hypotheses of `C27_join`: vertex 2 lies between the segments 1 2 and 2 5. -/
example : Ok exState ∧ Star exState.edges 2 [1, 5, 7, 3] ∧ ∀ o, Incident exState 2 o ↔ o = 1 ∨ o = 5 := by
  have hs : Star exState.edges 2 [1, 5, 7, 3] := ex_star (by decide) (by decide) (by decide)
  refine ⟨ex_ok, hs, ?_⟩
  intro o
  obtain ⟨-, f2, -⟩ := filter_incident ex_ok hs
  rw [← f2, show ([1, 5, 7, 3].filter fun o => isInterfaceBulk exState [2, o]) = [1, 5] by decide]
  simp

/-- C109 is false for tips: requesting the removal of the end point 7 erases the segment 5 7 and leaves vertex and mesh as
they are. -/
theorem C109_tip_false :
    ¬ ∀ (s : State) (v : Nat) (star : List Nat), Ok s → Star s.edges v star →
      (¬ ∃ a b, a ≠ b ∧ ∀ o, Incident s v o ↔ o = a ∨ o = b) →
      ∀ k, Map.find (removeFromInterface s v star).1.segs k = Map.find s.segs k := by
  intro h
  have hs : Star exState.edges 7 [5, 2] := ex_star (by decide) (by decide) (by decide)
  have := h exState 7 [5, 2] ex_ok hs ?_ (key 5 7)
  · exact absurd this (by decide)
  · obtain ⟨-, f2, -⟩ := filter_incident ex_ok hs
    rw [show ([5, 2].filter fun o => isInterfaceBulk exState [7, o]) = [5] by decide] at f2
    rintro ⟨a, b, hab, hi⟩
    have ha := (f2 a).2 ((hi a).2 (Or.inl rfl))
    have hb := (f2 b).2 ((hi b).2 (Or.inr rfl))
    simp only [List.mem_singleton] at ha hb
    omega

end Verif.InterfaceOps
