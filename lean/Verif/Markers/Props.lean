import Verif.Markers.Interface
import Verif.Factory.Model
import Mathlib.Data.Finset.Image
import Mathlib.Data.Fintype.Basic
import Mathlib.Data.List.Perm.Subperm

/-!
# Domain markers of elements (property C98)
-/

namespace Verif.Markers

/-- The calls of the factory that concern elements. -/
inductive FCall (d : Nat) (K : Type*)
  | vertex (p : Fin d → K)
  | element (v : Fin (d + 1) → Nat) (marker : Nat)
  | plainElement (v : Fin (d + 1) → Nat)

/-- One call. -/
def fstep {d : Nat} {K : Type*} (f : Fac d K) : FCall d K → Fac d K
  | .vertex p => f.insertVertex p
  | .element v m => f.insertElement v m
  | .plainElement v => f.insertElement' v

/-- Specification: the inserted elements in the order of the calls, with their markers. -/
def inserted {d : Nat} {K : Type*} : List (FCall d K) → List ((Fin (d + 1) → Nat) × Nat)
  | [] => []
  | .vertex _ :: h => inserted h
  | .element v m :: h => (v, m) :: inserted h
  | .plainElement v :: h => (v, 0) :: inserted h

theorem stored_eq {d : Nat} {K : Type*} (h : List (FCall d K)) (f : Fac d K) :
    (h.foldl fstep f).elements = f.elements ++ ((inserted h).zipIdx f.count).map (fun e => (e.1.1, e.2, e.1.2)) ∧
      (h.foldl fstep f).count = f.count + (inserted h).length := by
  induction h generalizing f with
  | nil => simp [inserted]
  | cons c h ih =>
    cases c with
    | vertex p =>
      obtain ⟨h1, h2⟩ := ih (f.insertVertex p)
      exact ⟨h1, h2⟩
    | element v m =>
      obtain ⟨h1, h2⟩ := ih (f.insertElement v m)
      refine ⟨?_, ?_⟩
      · simp only [List.foldl_cons, fstep, h1, inserted, List.zipIdx_cons, List.map_cons]
        simp [Fac.insertElement]
      · simp only [List.foldl_cons, fstep, h2, inserted, List.length_cons]
        simp [Fac.insertElement]
        omega
    | plainElement v =>
      obtain ⟨h1, h2⟩ := ih (f.insertElement' v)
      refine ⟨?_, ?_⟩
      · simp only [List.foldl_cons, fstep, h1, inserted, List.zipIdx_cons, List.map_cons]
        simp [Fac.insertElement', Fac.insertElement]
      · simp only [List.foldl_cons, fstep, h2, inserted, List.length_cons]
        simp [Fac.insertElement', Fac.insertElement]
        omega

section
variable {K : Type*} [Field K] [LinearOrder K]

theorem created {d : Nat} (orient : (Fin (d + 1) → Nat) → Fin (d + 1) → Nat)
    (ho : ∀ v, Finset.univ.image (orient v) = Finset.univ.image v) (x : Nat → K) (h : List (FCall d K)) (cells : List (Cell d))
    (hc : Created orient x (h.foldl fstep (Fac.init d K)) cells) :
    cells.length = (inserted h).length ∧ ∀ k v m, (inserted h)[k]? = some (v, m) → ∃ c ∈ cells, c.insertionIndex = k ∧ c.domainMarker = m ∧
      Finset.univ.image c.vertex = Finset.univ.image v ∧ ∀ c' ∈ cells, c'.insertionIndex = k → c' = c := by
  obtain ⟨L, hp, -, rfl⟩ := hc
  rw [(stored_eq h (Fac.init d K)).1] at hp
  simp only [Fac.init, List.nil_append] at hp
  refine ⟨by simpa [createCells] using hp.length_eq, ?_⟩
  intro k v m hk
  have hmem : (v, k, m) ∈ L := by
    rw [hp.mem_iff, List.mem_map]
    exact ⟨((v, m), k), by simpa [List.mem_zipIdx_iff_getElem?] using hk, rfl⟩
  refine ⟨⟨orient v, k, m⟩, List.mem_map.2 ⟨(v, k, m), hmem, rfl⟩, rfl, rfl, ho v, ?_⟩
  intro c' hc' hk'
  obtain ⟨t, ht, rfl⟩ := List.mem_map.1 hc'
  rw [hp.mem_iff, List.mem_map] at ht
  obtain ⟨⟨⟨v', m'⟩, k'⟩, ht, rfl⟩ := ht
  simp only at hk'
  subst hk'
  simp only [List.mem_zipIdx_iff_getElem?, hk, Option.some.injEq, Prod.mk.injEq] at ht
  obtain ⟨rfl, rfl⟩ := ht
  rfl

/-- **C98** in 2D: whatever vertices and elements are inserted in the explicit factory, in whatever order elements are sorted: there is one element for
every inserted one, and the element with insertion index `k` has the vertices and the marker of the `k`-th inserted one. -/
theorem C98_created_2d (x y : Nat → K) (h : List (FCall 2 K)) (cells : List (Cell 2))
    (hc : Created (Factory.orient2 x y) x (h.foldl fstep (Fac.init 2 K)) cells) :
    cells.length = (inserted h).length ∧ ∀ k v m, (inserted h)[k]? = some (v, m) → ∃ c ∈ cells, c.insertionIndex = k ∧ c.domainMarker = m ∧
      Finset.univ.image c.vertex = Finset.univ.image v ∧ ∀ c' ∈ cells, c'.insertionIndex = k → c' = c := by
  refine created _ (fun v => ?_) x h cells hc
  unfold Factory.orient2
  simp only
  split
  · ext n
    simp only [Finset.mem_image, Finset.mem_univ, true_and, Fin.exists_fin_succ]
    simp
    tauto
  · rfl

/-- **C98** in 3D. -/
theorem C98_created_3d (x : Nat → K) (h : List (FCall 3 K)) (cells : List (Cell 3))
    (hc : Created Factory.orient3 x (h.foldl fstep (Fac.init 3 K)) cells) :
    cells.length = (inserted h).length ∧ ∀ k v m, (inserted h)[k]? = some (v, m) → ∃ c ∈ cells, c.insertionIndex = k ∧ c.domainMarker = m ∧
      Finset.univ.image c.vertex = Finset.univ.image v ∧ ∀ c' ∈ cells, c'.insertionIndex = k → c' = c :=
  created _ (fun _ => rfl) x h cells hc

end

/-- A square of two triangles with the markers 5 and 3, inserted from right to left and the first one clockwise. -/
def exCalls : List (FCall 2 ℚ) :=
  [.vertex ![0, 0], .vertex ![1, 0], .vertex ![0, 1], .vertex ![1, 1], .element ![1, 2, 3] 5, .element ![0, 1, 2] 3, .plainElement ![1, 2, 3]]

def exX : Nat → ℚ
  | 1 => 1
  | 3 => 1
  | _ => 0

def exY : Nat → ℚ
  | 2 => 1
  | 3 => 1
  | _ => 0

/-- The second element comes first in the triangulation. -/
example : ∃ cells, Created (Factory.orient2 exX exY) exX (exCalls.foldl fstep (Fac.init 2 ℚ)) cells ∧
    cells.map (fun c => (c.insertionIndex, c.domainMarker)) = [(1, 3), (0, 5), (2, 0)] := by
  refine ⟨_, ⟨[(![0, 1, 2], 1, 3), (![1, 2, 3], 0, 5), (![1, 2, 3], 2, 0)], ?_, ?_, rfl⟩, rfl⟩
  · exact List.Perm.swap _ _ _
  · simp only [sumX, exX]
    decide +kernel

/-- **C145** (not guaranteed): the implicit factory ignores the marker. -/
theorem C145_implicit_false :
    ¬ ∀ (cells : List (Cell 2)) (count : Nat) (v : Fin 3 → Nat) (m : Nat), ∀ c ∈ (implicitInsertElement cells count v m).1,
      c.insertionIndex = count → c.domainMarker = m := by
  intro h
  have := h [⟨![0, 1, 2], 0, 0⟩] 0 ![0, 1, 2] 5 ⟨![0, 1, 2], 0, 0⟩ (by simp [implicitInsertElement]) rfl
  exact absurd this (by decide)

/-- **C145** during adaptation: all markers are old ones or 0, after any sequence of insertions and removals. -/
theorem C145_values {d : Nat} {old new : Cells d} (h : Relation.ReflTransGen (Rewrite (d := d)) old new) :
    ∀ e ∈ new, e.2.domainMarker = 0 ∨ ∃ e' ∈ old, e.2.domainMarker = e'.2.domainMarker := by
  induction h with
  | refl => exact fun e he => Or.inr ⟨e, he, rfl⟩
  | @tail mid new _ hs ih =>
    intro e he
    by_cases hm : e.1 ∈ mid.map Prod.fst
    · obtain ⟨e', he', hk⟩ := List.mem_map.1 hm
      rw [hs.kept e he e' he' hk.symm]
      exact ih e' he'
    · exact Or.inl (hs.fresh e he hm)

/-- **C145** (not guaranteed): every insertion of a vertex loses markers: whatever markers the elements had, whatever the host grid does with its
cells, if there are more cells afterwards then some cell has the marker 0. -/
theorem C145_refined_false {d : Nat} {old new : Cells d} (h : Rewrite old new) (hl : old.length < new.length) :
    ∃ e ∈ new, e.1 ∉ old.map Prod.fst ∧ e.2.domainMarker = 0 := by
  by_contra hcon
  simp only [not_exists, not_and] at hcon
  have hsub : new.map Prod.fst ⊆ old.map Prod.fst := by
    intro k hk
    obtain ⟨e, he, rfl⟩ := List.mem_map.1 hk
    by_contra hn
    exact hcon e he hn (h.fresh e he hn)
  have := (List.subperm_of_subset h.nodupNew hsub).length_le
  simp at this
  omega

/-- A triangle with marker 5 is divided into three: CGAL uses the old cell for one of the new ones. -/
example : Rewrite (d := 2) [(0, ⟨![0, 1, 2], 0, 5⟩)] [(0, ⟨![3, 1, 2], 0, 5⟩), (1, ⟨![0, 3, 2], 0, 0⟩), (2, ⟨![0, 1, 3], 0, 0⟩)] := by
  refine ⟨by decide, by decide, ?_, ?_⟩
  · simp
  · simp

end Verif.Markers
