import Verif.Trace.Model
import Mathlib.Data.Fin.VecNotation
import Mathlib.Algebra.Order.Ring.Rat
import Mathlib.LinearAlgebra.Matrix.Notation
import Mathlib.Tactic.FinCases
import Mathlib.Tactic.NormNum
import Mathlib.Tactic.Ring
import Mathlib.Algebra.Order.Field.Basic

/-!
# C70-C74: skeleton and trace functions, movement functions

Specification vocabulary: a function on the interface is represented by local functions `f` if the value of `f` at the
local coordinate `ξ` of an interface element is the value of the function at the physical point `ielementGlobal`.
-/

namespace Verif.Trace

set_option linter.unusedSectionVars false

open RefElem

variable {K V R : Type*} {m : ℕ}

/-- What CGAL and the id set guarantee: elements have distinct vertex ids (and `cgalIndex` up to date); across each facet
of an element lies a cell with the same facet, which mirrors back. -/
structure Grid.Valid (g : Grid m V) : Prop where
  wf : ∀ c, g.inf c = false → WellFormed (g.cell c)
  back : ∀ c s, g.inf c = false → mirrorFacet g (mirrorFacet g (c, s)) = (c, s)
  share : ∀ c s, g.inf c = false →
    facetVertices (g.cell (g.nbr c s)).ids (g.mirror c s) = facetVertices (g.cell c).ids s
  distinct : ∀ c s, g.inf c = false → ∀ i j, i ≠ g.mirror c s → j ≠ g.mirror c s →
    (g.cell (g.nbr c s)).ids i = (g.cell (g.nbr c s)).ids j → i = j

/-- `loc` gives the corners of the facets of the reference element. -/
structure StdLoc [Field K] (loc : LocalGeo K m) : Prop where
  corner : ∀ (f : Fin (m + 2)) (k : Fin (m + 1)), loc f.val k = refCorner K (refFacet f k)
  regular : ∀ f : Fin (m + 2), (sideJac loc f.val * (sideJac loc f.val).transpose).det ≠ 0

/-- The local geometries of the code in 2D. -/
def loc2 (K : Type*) [Field K] : LocalGeo K 1 := localFacetCorner2 K

/-- The local geometries of the code in 3D. -/
def loc3 (K : Type*) [Field K] : LocalGeo K 2 := localFacetCorner3 K

theorem refCorner_zero [Field K] {d : ℕ} : refCorner K (0 : Fin (d + 1)) = 0 := rfl

theorem refCorner_succ [Field K] {d : ℕ} (j : Fin d) : refCorner K j.succ = Pi.single j (1 : K) := rfl

theorem std2 [Field K] [LinearOrder K] [IsStrictOrderedRing K] : StdLoc (loc2 K) := by
  have hc : ∀ (f : Fin 3) (k : Fin 2), loc2 K f.val k = refCorner K (refFacet (d := 2) f k) := by
    intro f k
    rw [loc2, localFacetCorner2, local2]
  refine ⟨hc, fun f => ?_⟩
  rw [Matrix.det_fin_one, Matrix.mul_apply]
  simp only [sideJac, Matrix.transpose_apply, Matrix.of_apply]
  simp only [hc]
  have e0 : refCorner K (0 : Fin 3) = ![0, 0] := by funext i; fin_cases i <;> rfl
  have e1 : refCorner K (1 : Fin 3) = ![1, 0] := by funext i; fin_cases i <;> rfl
  have e2 : refCorner K (2 : Fin 3) = ![0, 1] := by funext i; fin_cases i <;> rfl
  have r : refFacet (d := 2) 0 0 = 0 ∧ refFacet (d := 2) 0 1 = 1 ∧ refFacet (d := 2) 1 0 = 0 ∧ refFacet (d := 2) 1 1 = 2 ∧
      refFacet (d := 2) 2 0 = 1 ∧ refFacet (d := 2) 2 1 = 2 := by decide
  obtain ⟨r1, r2, r3, r4, r5, r6⟩ := r
  rw [Fin.sum_univ_two]
  fin_cases f
  · simp only [Fin.succ_zero_eq_one, Fin.zero_eta, r1, r2, e0, e1]
    simp
  · simp only [Fin.succ_zero_eq_one, Fin.mk_one, r3, r4, e0, e2]
    simp
  · simp only [Fin.succ_zero_eq_one, Fin.reduceFinMk, r5, r6, e1, e2]
    simp

theorem std3 [Field K] [LinearOrder K] [IsStrictOrderedRing K] : StdLoc (loc3 K) := by
  have hc : ∀ (f : Fin 4) (k : Fin 3), loc3 K f.val k = refCorner K (refFacet (d := 3) f k) := by
    intro f k
    rw [loc3, localFacetCorner3, local3]
  refine ⟨hc, fun f => ?_⟩
  rw [Matrix.det_fin_two]
  simp only [sideJac, Matrix.of_apply, Matrix.mul_apply, Matrix.transpose_apply, Fin.sum_univ_three]
  simp only [hc]
  have e0 : refCorner K (0 : Fin 4) = ![0, 0, 0] := by funext i; fin_cases i <;> rfl
  have e1 : refCorner K (1 : Fin 4) = ![1, 0, 0] := by funext i; fin_cases i <;> rfl
  have e2 : refCorner K (2 : Fin 4) = ![0, 1, 0] := by funext i; fin_cases i <;> rfl
  have e3 : refCorner K (3 : Fin 4) = ![0, 0, 1] := by funext i; fin_cases i <;> rfl
  have s0 : (0 : Fin 2).succ = (1 : Fin 3) := rfl
  have s1 : (1 : Fin 2).succ = (2 : Fin 3) := rfl
  have r : refFacet (d := 3) 0 0 = 0 ∧ refFacet (d := 3) 0 1 = 1 ∧ refFacet (d := 3) 0 2 = 2 ∧
      refFacet (d := 3) 1 0 = 0 ∧ refFacet (d := 3) 1 1 = 1 ∧ refFacet (d := 3) 1 2 = 3 ∧
      refFacet (d := 3) 2 0 = 0 ∧ refFacet (d := 3) 2 1 = 2 ∧ refFacet (d := 3) 2 2 = 3 ∧
      refFacet (d := 3) 3 0 = 1 ∧ refFacet (d := 3) 3 1 = 2 ∧ refFacet (d := 3) 3 2 = 3 := by decide
  obtain ⟨r1, r2, r3, r4, r5, r6, r7, r8, r9, r10, r11, r12⟩ := r
  fin_cases f
  · simp only [s0, s1, Fin.zero_eta, r1, r2, r3, e0, e1, e2]
    simp [Fin.sum_univ_succ]
  · simp only [s0, s1, Fin.mk_one, r4, r5, r6, e0, e1, e3]
    simp [Fin.sum_univ_succ]
  · simp only [s0, s1, Fin.reduceFinMk, r7, r8, r9, e0, e2, e3]
    simp [Fin.sum_univ_succ]
  · simp only [s0, s1, Fin.reduceFinMk, r10, r11, r12, e1, e2, e3]
    simp [Fin.sum_univ_succ]
    norm_num

section
variable [Field K] [AddCommGroup V] [Module K V]

/-- `local` inverts `global`. -/
theorem sideLocal_sideGlobal {loc : LocalGeo K m} (hl : StdLoc loc) (f : Fin (m + 2)) (ξ : Fin m → K) :
    sideLocal loc f.val (sideGlobal loc f.val ξ) = ξ := by
  unfold sideLocal sideGlobal affineGlobal
  have hr := hl.regular f
  have h1 : loc f.val 0 + ∑ k, ξ k • (loc f.val k.succ - loc f.val 0) - loc f.val 0
      = (sideJac loc f.val).transpose.mulVec ξ := by
    rw [add_sub_cancel_left]
    funext j
    simp [Matrix.mulVec, dotProduct, Finset.sum_apply, sideJac, mul_comm]
  simp only
  rw [h1, Matrix.mulVec_mulVec, Matrix.mulVec_mulVec, Matrix.mul_assoc, Matrix.nonsing_inv_mul _ (IsUnit.mk0 _ hr),
    Matrix.one_mulVec]

/-- The ids of the corners of an interface element are its key. -/
theorem map_ids_interfaceIndices {d : ℕ} (ids : Fin (d + 1) → ℕ) (s : Fin (d + 1)) :
    (interfaceIndices ids s).map ids = sortIds ((List.finRange d).map fun i => ids (s + i.succ)) := by
  unfold interfaceIndices sortIds
  rw [List.map_insertionSort (r := fun a b => ids a ≤ ids b) (s := (· ≤ ·)) ids _ (fun a _ b _ => Iff.rfl), List.map_map]
  rfl

theorem interfaceCorners_eq (g : Grid m V) (h : Facet m) :
    interfaceCorners (g.cell h.1).ids (g.pos ∘ (g.cell h.1).ids) h.2 = (key g h).map g.pos := by
  unfold interfaceCorners key
  rw [← map_ids_interfaceIndices, List.map_map]

theorem key_length (g : Grid m V) (h : Facet m) : (key g h).length = m + 1 := by
  unfold key
  rw [(sortIds_perm _).length_eq, List.length_map, List.length_finRange]

/-- The geometry of an interface element only depends on its key. -/
theorem ielementGlobal_key (g : Grid m V) (h : Facet m) (ξ : Fin m → K) :
    ielementGlobal g h ξ = affineGlobal (fun k : Fin (m + 1) => ((key g h).map g.pos).getD k.val 0) ξ := by
  unfold ielementGlobal
  rw [interfaceCorners_eq]

theorem slots (s : Fin (m + 2)) (t : Fin (m + 2)) : t ≠ s ↔ ∃ i : Fin (m + 1), s + i.succ = t := by
  constructor
  · intro h
    obtain ⟨i, hi⟩ := Fin.exists_succ_eq_of_ne_zero (sub_ne_zero.2 h)
    exact ⟨i, by rw [hi]; abel⟩
  · rintro ⟨i, rfl⟩ h
    exact Fin.succ_ne_zero i (by simpa using h)

theorem mem_key (g : Grid m V) (h : Facet m) (x : ℕ) : x ∈ key g h ↔ x ∈ facetVertices (g.cell h.1).ids h.2 := by
  unfold key facetVertices
  rw [(sortIds_perm _).mem_iff, List.mem_map]
  simp only [List.mem_finRange, true_and, Set.mem_ofPred_eq]
  constructor
  · rintro ⟨i, rfl⟩
    exact ⟨_, (slots _ _).2 ⟨i, rfl⟩, rfl⟩
  · rintro ⟨t, ht, rfl⟩
    obtain ⟨i, rfl⟩ := (slots _ _).1 ht
    exact ⟨i, rfl⟩

theorem key_strict (g : Grid m V) (h : Facet m)
    (hd : ∀ i j, i ≠ h.2 → j ≠ h.2 → (g.cell h.1).ids i = (g.cell h.1).ids j → i = j) :
    (key g h).Pairwise (· < ·) := by
  unfold key
  refine sortIds_strict ?_
  refine (List.nodup_finRange _).map_on fun a _ b _ hab => ?_
  have := hd _ _ ((slots _ _).2 ⟨a, rfl⟩) ((slots _ _).2 ⟨b, rfl⟩) hab
  exact Fin.succ_injective _ (add_left_cancel this)

/-- Both sides of a facet have the same key. -/
theorem key_mirror (g : Grid m V) (hg : g.Valid) (c : ℕ) (s : Fin (m + 2)) (hc : g.inf c = false) :
    key g (mirrorFacet g (c, s)) = key g (c, s) := by
  refine sorted_ext (key_strict g _ ?_) (key_strict g _ ?_) (fun x => ?_)
  · exact hg.distinct c s hc
  · intro i j _ _ hij
    exact (hg.wf c hc).1 hij
  · rw [mem_key, mem_key]
    exact Set.ext_iff.1 (hg.share c s hc) x

/-- The point of the facet `(c, s)` with coordinate `ξ`, reached through element `c`. -/
theorem conforming (hd : m + 1 = 2 ∨ m + 1 = 3) {loc : LocalGeo K m} (hl : StdLoc loc) (g : Grid m V) (hg : g.Valid)
    (c : ℕ) (s : Fin (m + 2)) (hc : g.inf c = false) (ξ : Fin m → K) :
    elementGlobal g c (sideGlobal loc (cgalFacetToDuneFacet (m + 1) (g.cell c).c s) ξ) = ielementGlobal g (c, s) ξ := by
  have hwf := hg.wf c hc
  have hcor := C09_interface_corners hd (g.cell c) hwf (g.pos ∘ (g.cell c).ids) s
  unfold elementGlobal sideGlobal ielementGlobal
  simp only
  generalize hpt : g.pos ∘ (g.cell c).ids = pt at *
  obtain ⟨ids, h, he⟩ := hwf.cases
  rw [he] at hcor ⊢
  rw [facet_list hd, Option.some_inj] at hcor
  rw [← hcor]
  have hloc : loc (cgalFacetToDuneFacet (m + 1) (computeCGALIndices ids) s)
      = fun k => refCorner K (((computeCGALIndices ids).symm s).succAbove k) := by
    funext k
    rw [dune_eq hd, hl.corner, refFacet, Fin.rev_rev]
  simp only [hloc]
  rw [affineGlobal_comp]
  congr 1
  funext k
  have hk : (List.finRange (m + 1))[k.val]? = some k := by
    rw [List.getElem?_eq_getElem (by rw [List.length_finRange]; exact k.isLt)]
    simp
  simp [elementCorner, List.getD_eq_getElem?_getD, hk]

theorem sideIndex_lt (hd : m + 1 = 2 ∨ m + 1 = 3) (g : Grid m V) (hg : g.Valid) (c : ℕ) (s : Fin (m + 2))
    (hc : g.inf c = false) : ∃ f : Fin (m + 2), cgalFacetToDuneFacet (m + 1) (g.cell c).c s = f.val := by
  obtain ⟨ids, h, he⟩ := (hg.wf c hc).cases
  rw [he, dune_eq hd]
  exact ⟨_, rfl⟩

end

/-- The local functions `f` (by id of the interface element and local coordinate) represent the function `φ` on the
interface (by id and physical point). -/
def RepresentsI [Field K] [AddCommGroup V] [Module K V] (g : Grid m V) (f : List ℕ → (Fin m → K) → R)
    (φ : List ℕ → V → R) : Prop :=
  ∀ c s, g.inf c = false → ∀ ξ : Fin m → K, f (key g (c, s)) ξ = φ (key g (c, s)) (ielementGlobal g (c, s) ξ)

/-- The local functions `u` (by element and local coordinate) represent the function `φ` on the bulk grid, which may
have different values on the two sides of a facet. -/
def RepresentsB [Field K] [AddCommGroup V] [Module K V] (g : Grid m V) (u : ℕ → (Fin (m + 1) → K) → R)
    (φ : ℕ → V → R) : Prop :=
  ∀ c, g.inf c = false → ∀ x : Fin (m + 1) → K, u c x = φ c (elementGlobal g c x)

/-- The element on the chosen side of a facet. -/
def sideCell (g : Grid m V) (h : Facet m) (inside : Bool) : ℕ := if inside then h.1 else g.nbr h.1 h.2

section skeleton
variable [Field K] [AddCommGroup V] [Module K V] [Zero R]

theorem bind_intersection (g : Grid m V) (st : Skeleton) (h : Facet m) (inside : Bool) (hi : isInterface g h = true)
    (i : ℕ) (hs : sideIndex g h inside = some i) :
    st.bind g (.intersection h inside) = some ⟨true, key g (asInterfaceEntity g h), i⟩ := by
  simp [Skeleton.bind, hi, hs]

theorem skeleton_general (hd : m + 1 = 2 ∨ m + 1 = 3) {loc : LocalGeo K m} (hl : StdLoc loc) (g : Grid m V)
    (hg : g.Valid) (f : List ℕ → (Fin m → K) → R) (φ : List ℕ → V → R) (hf : RepresentsI g f φ) (st : Skeleton)
    (c : ℕ) (s : Fin (m + 2)) (inside : Bool) (hc : g.inf c = false) (hi : isInterface g (c, s) = true)
    (hn : inside = false → g.inf (g.nbr c s) = false) :
    ∃ st' i, st.bind g (.intersection (c, s) inside) = some st' ∧ sideIndex g (c, s) inside = some i ∧
      ∀ ξ, st'.evaluate loc f (sideGlobal loc i ξ)
        = φ (key g (c, s)) (elementGlobal g (sideCell g (c, s) inside) (sideGlobal loc i ξ)) := by
  have hkey : key g (asInterfaceEntity g (c, s)) = key g (c, s) := by
    unfold asInterfaceEntity
    split
    · exact key_mirror g hg c s hc
    · rfl
  cases inside with
  | true =>
    refine ⟨_, _, bind_intersection g st (c, s) true hi _ rfl, rfl, fun ξ => ?_⟩
    simp only [Skeleton.evaluate, if_true, hkey, sideCell]
    obtain ⟨fi, hfi⟩ := sideIndex_lt hd g hg c s hc
    rw [conforming hd hl g hg c s hc, hfi, sideLocal_sideGlobal hl, hf c s hc]
  | false =>
    have hn' := hn rfl
    have hs : sideIndex g (c, s) false = some (cgalFacetToDuneFacet (m + 1) (g.cell (mirrorFacet g (c, s)).1).c (mirrorFacet g (c, s)).2) := by
      simp [sideIndex, hn']
    refine ⟨_, _, bind_intersection g st (c, s) false hi _ hs, hs, fun ξ => ?_⟩
    simp only [Skeleton.evaluate, if_true, hkey, sideCell, Bool.false_eq_true, if_false]
    obtain ⟨fi, hfi⟩ := sideIndex_lt hd g hg (g.nbr c s) (g.mirror c s) hn'
    have hcf := conforming hd hl g hg (g.nbr c s) (g.mirror c s) hn' ξ
    simp only [mirrorFacet]
    rw [hcf, hfi, sideLocal_sideGlobal hl, ielementGlobal_key,
      show key g (g.nbr c s, g.mirror c s) = key g (c, s) from key_mirror g hg c s hc, ← ielementGlobal_key, hf c s hc]

end skeleton

/-! ## C70 -/

section
variable [Field K] [LinearOrder K] [IsStrictOrderedRing K] [AddCommGroup V] [Module K V] [Zero R]

/-- **C70** (2D) After binding to a facet of the interface from either side, whatever was bound before, the skeleton
function evaluated at a point of the facet (given in local coordinates of the element on that side) is the interface
function at the same physical point. The same statement holds for derivatives (`f` the derivative). -/
theorem C70_skeleton_2d (g : Grid 1 V) (hg : g.Valid) (f : List ℕ → (Fin 1 → K) → R) (φ : List ℕ → V → R)
    (hf : RepresentsI g f φ) (st : Skeleton) (c : ℕ) (s : Fin 3) (inside : Bool) (hc : g.inf c = false)
    (hi : isInterface g (c, s) = true) (hn : inside = false → g.inf (g.nbr c s) = false) :
    ∃ st' i, st.bind g (.intersection (c, s) inside) = some st' ∧ sideIndex g (c, s) inside = some i ∧
      ∀ ξ, st'.evaluate (loc2 K) f (sideGlobal (loc2 K) i ξ)
        = φ (key g (c, s)) (elementGlobal g (sideCell g (c, s) inside) (sideGlobal (loc2 K) i ξ)) :=
  skeleton_general (Or.inl rfl) std2 g hg f φ hf st c s inside hc hi hn

/-- **C70** (3D) -/
theorem C70_skeleton_3d (g : Grid 2 V) (hg : g.Valid) (f : List ℕ → (Fin 2 → K) → R) (φ : List ℕ → V → R)
    (hf : RepresentsI g f φ) (st : Skeleton) (c : ℕ) (s : Fin 4) (inside : Bool) (hc : g.inf c = false)
    (hi : isInterface g (c, s) = true) (hn : inside = false → g.inf (g.nbr c s) = false) :
    ∃ st' i, st.bind g (.intersection (c, s) inside) = some st' ∧ sideIndex g (c, s) inside = some i ∧
      ∀ ξ, st'.evaluate (loc3 K) f (sideGlobal (loc3 K) i ξ)
        = φ (key g (c, s)) (elementGlobal g (sideCell g (c, s) inside) (sideGlobal (loc3 K) i ξ)) :=
  skeleton_general (Or.inr rfl) std3 g hg f φ hf st c s inside hc hi hn

/-- **C70** The values taken from the two sides agree at the point with the same facet coordinate. -/
theorem C70_sides_2d (g : Grid 1 V) (hg : g.Valid) (f : List ℕ → (Fin 1 → K) → R) (φ : List ℕ → V → R)
    (hf : RepresentsI g f φ) (st : Skeleton) (c : ℕ) (s : Fin 3) (hc : g.inf c = false)
    (hi : isInterface g (c, s) = true) (hn : g.inf (g.nbr c s) = false) :
    ∃ st₁ st₂ i₁ i₂, st.bind g (.intersection (c, s) true) = some st₁ ∧ sideIndex g (c, s) true = some i₁ ∧
      st.bind g (.intersection (c, s) false) = some st₂ ∧ sideIndex g (c, s) false = some i₂ ∧
      ∀ ξ, st₁.evaluate (loc2 K) f (sideGlobal (loc2 K) i₁ ξ) = st₂.evaluate (loc2 K) f (sideGlobal (loc2 K) i₂ ξ) := by
  obtain ⟨st₁, i₁, hb₁, hs₁, h₁⟩ := C70_skeleton_2d g hg f φ hf st c s true hc hi (by simp)
  obtain ⟨st₂, i₂, hb₂, hs₂, h₂⟩ := C70_skeleton_2d g hg f φ hf st c s false hc hi (fun _ => hn)
  refine ⟨st₁, st₂, i₁, i₂, hb₁, hs₁, hb₂, hs₂, fun ξ => ?_⟩
  rw [h₁, h₂]
  congr 1
  simp only [sideIndex, if_true, Option.some.injEq] at hs₁
  simp only [sideIndex, Bool.false_eq_true, if_false, hn, Option.some.injEq] at hs₂
  subst hs₁ hs₂
  simp only [sideCell, if_true, Bool.false_eq_true, if_false]
  rw [conforming (Or.inl rfl) std2 g hg c s hc]
  simp only [mirrorFacet]
  rw [conforming (Or.inl rfl) std2 g hg _ _ hn, ielementGlobal_key, ielementGlobal_key,
    show key g (g.nbr c s, g.mirror c s) = key g (c, s) from key_mirror g hg c s hc]

end

/-! ## C71 -/

section
variable [Field K] [AddCommGroup V] [Module K V] [Zero R]

/-- **C71** On a facet that is not part of the interface the skeleton function and the indicator are zero, whatever was
bound before. -/
theorem C71_zero (g : Grid m V) (loc : LocalGeo K m) (f : List ℕ → (Fin m → K) → R) (st : Skeleton) (h : Facet m)
    (inside : Bool) (hi : isInterface g h = false) :
    ∃ st', st.bind g (.intersection h inside) = some st' ∧ (∀ x, st'.evaluate loc f x = 0) ∧ indicator st' = (0 : ℚ) := by
  exact ⟨{ st with onInterface := false }, by simp [Skeleton.bind, hi], fun x => by simp [Skeleton.evaluate],
    by simp [indicator]⟩

/-- **C71** On a facet of the interface the indicator is one. -/
theorem C71_one (g : Grid m V) (st : Skeleton) (h : Facet m) (hi : isInterface g h = true) :
    ∃ st', st.bind g (.intersection h true) = some st' ∧ indicator st' = (1 : ℚ) :=
  ⟨_, bind_intersection g st h true hi _ rfl, by simp [indicator]⟩

/-- **C71** The values after binding to a facet do not depend on what was bound before. -/
theorem C71_history (g : Grid m V) (loc : LocalGeo K m) (f : List ℕ → (Fin m → K) → R) (st₁ st₂ : Skeleton) (h : Facet m)
    (inside : Bool) : (st₁.bind g (.intersection h inside)).map (fun st => (st.evaluate loc f, (indicator st : ℚ)))
      = (st₂.bind g (.intersection h inside)).map (fun st => (st.evaluate loc f, (indicator st : ℚ))) := by
  simp only [Skeleton.bind]
  split
  · rfl
  · simp only [Option.map_some, Option.some.injEq, Prod.mk.injEq]
    exact ⟨by funext x; simp [Skeleton.evaluate], rfl⟩

/-- **C129** (part) A skeleton function that was only bound to elements is zero. -/
theorem C129_elements_partial (g : Grid m V) (loc : LocalGeo K m) (f : List ℕ → (Fin m → K) → R) (cs : List ℕ)
    (x : Fin (m + 1) → K) :
    (Skeleton.new.binds g (cs.map .entity)).map (fun st => st.evaluate loc f x) = some 0 := by
  have : Skeleton.new.binds g (cs.map .entity) = some Skeleton.new := by
    induction cs with
    | nil => rfl
    | cons c cs ih => simpa [Skeleton.binds, Skeleton.bind] using ih
  rw [this]
  simp [Skeleton.evaluate, Skeleton.new]

end

/-! ## Example grid: two triangles (0 1 2) and (3 2 1) and the infinite cells around them -/

/-- Vertex ids of the example cells. -/
def exIds : ℕ → Fin 3 → ℕ
  | 0 => ![0, 1, 2]
  | 1 => ![3, 2, 1]
  | 2 => ![0, 1, 99]
  | 3 => ![0, 2, 99]
  | 4 => ![3, 1, 99]
  | _ => ![3, 2, 99]

/-- Two triangles with the interface between them; `ins` are the insertion numbers. -/
def exGrid (ins : ℕ → ℕ) : Grid 1 (ℚ × ℚ) where
  cell := fun c => ⟨exIds c, computeCGALIndices (exIds c)⟩
  inf := fun c => decide (2 ≤ c)
  nbr := fun c s => match c with
    | 0 => ![1, 3, 2] s
    | 1 => ![0, 4, 5] s
    | 2 => 0
    | 3 => 0
    | _ => 1
  mirror := fun c s => match c with
    | 0 => ![0, 2, 2] s
    | 1 => ![0, 2, 2] s
    | 2 => 2
    | 3 => 1
    | 4 => 1
    | _ => 2
  ins := ins
  segs := [[1, 2]]
  pos := fun v => match v with
    | 0 => (0, 0)
    | 1 => (4, 0)
    | 2 => (0, 4)
    | _ => (4, 4)
  flag := fun v => decide (v = 1 ∨ v = 2)

theorem exGrid_cases {ins : ℕ → ℕ} {c : ℕ} (h : (exGrid ins).inf c = false) : c = 0 ∨ c = 1 := by
  simp only [exGrid, decide_eq_false_iff_not] at h
  omega

theorem exGrid_valid_id : (exGrid id).Valid where
  wf := by
    intro c hc
    refine ⟨?_, rfl⟩
    rcases exGrid_cases hc with rfl | rfl <;> simp only [exGrid, exIds] <;> decide
  back := by
    intro c s hc
    rcases exGrid_cases hc with rfl | rfl <;> fin_cases s <;> rfl
  share := by
    intro c s hc
    have : ∀ (a b : Fin 3 → ℕ) (i j : Fin 3), (∀ k, k ≠ i → ∃ l, l ≠ j ∧ b l = a k) → (∀ k, k ≠ j → ∃ l, l ≠ i ∧ a l = b k) →
        facetVertices (d := 2) a i = facetVertices (d := 2) b j := by
      intro a b i j h1 h2
      ext x
      constructor
      · rintro ⟨t, ht, rfl⟩; exact h1 t ht
      · rintro ⟨t, ht, rfl⟩; exact h2 t ht
    rcases exGrid_cases hc with rfl | rfl <;> fin_cases s <;> exact this _ _ _ _ (by decide) (by decide)
  distinct := by
    intro c s hc
    rcases exGrid_cases hc with rfl | rfl <;> fin_cases s <;> simp only [exGrid, exIds] <;> decide

theorem exGrid_valid (ins : ℕ → ℕ) : (exGrid ins).Valid :=
  ⟨exGrid_valid_id.wf, exGrid_valid_id.back, exGrid_valid_id.share, exGrid_valid_id.distinct⟩

/-- Non-vacuity of C70: the interface is the edge between the triangles, both sides are elements, and the function
`ξ ↦ 1 + ξ` (the affine function with values 1 and 2 at the end points) is represented. -/
example : isInterface (exGrid id) (0, 0) = true ∧ (exGrid id).inf 0 = false ∧ (exGrid id).inf ((exGrid id).nbr 0 0) = false ∧
    RepresentsI (K := ℚ) (R := ℚ) (exGrid id) (fun _ _ => 1) (fun _ _ => 1) := by
  refine ⟨by decide, by decide, by decide, fun _ _ _ _ => rfl⟩

/-- **C129** is false for elements: after the interface edge was bound, binding to an element (here with the vertex 0,
which is not on the interface) leaves the value of the edge in place. -/
theorem C129_entity_false :
    (Skeleton.new.binds (exGrid id) [.intersection (0, 0) true, .entity 0]).map
      (fun st => (st.evaluate (loc2 ℚ) (fun _ _ => (7 : ℚ)) ![0, 0], (indicator st : ℚ))) = some (7, 1) := by
  have hi : isInterface (exGrid id) ((0, 0) : Facet 1) = true := by decide
  simp [Skeleton.binds, Skeleton.bind, hi, sideIndex, Skeleton.evaluate, indicator]

/-! ## C72 -/

section
variable [Field K] [AddCommGroup V] [Module K V]

/-- The element on the `+` side of an interface facet: the one with the smaller insertion number, and the element itself
at the domain boundary. -/
def plusCell (g : Grid m V) (c : ℕ) (s : Fin (m + 2)) : ℕ :=
  if g.inf (g.nbr c s) then c else if g.ins c > g.ins (g.nbr c s) then g.nbr c s else c

/-- The element on the `-` side. -/
def minusCell (g : Grid m V) (c : ℕ) (s : Fin (m + 2)) : ℕ :=
  if g.ins c > g.ins (g.nbr c s) then c else g.nbr c s

theorem asIntersection_cases (g : Grid m V) (hg : g.Valid) (c : ℕ) (s : Fin (m + 2)) (hc : g.inf c = false) :
    (asIntersection g (asInterfaceEntity g (c, s)) = (c, s) ∧ (g.inf (g.nbr c s) = true ∨ ¬ g.ins c > g.ins (g.nbr c s)))
    ∨ (asIntersection g (asInterfaceEntity g (c, s)) = mirrorFacet g (c, s) ∧ g.inf (g.nbr c s) = false ∧
      g.ins c > g.ins (g.nbr c s)) := by
  unfold asInterfaceEntity
  by_cases h : g.ins c > g.ins (g.nbr c s)
  · rw [if_pos h]
    by_cases hn : g.inf (g.nbr c s) = true
    · left
      refine ⟨?_, Or.inl hn⟩
      simp only [asIntersection, mirrorFacet, hn, if_true]
      exact hg.back c s hc
    · right
      refine ⟨?_, by simpa using hn, h⟩
      simp [asIntersection, mirrorFacet, hn]
  · rw [if_neg h]
    left
    exact ⟨by simp [asIntersection, hc], Or.inr h⟩

theorem trace_plus (hd : m + 1 = 2 ∨ m + 1 = 3) {loc : LocalGeo K m} (hl : StdLoc loc) (g : Grid m V) (hg : g.Valid)
    (u : ℕ → (Fin (m + 1) → K) → R) (φ : ℕ → V → R) (hu : RepresentsB g u φ) (c : ℕ) (s : Fin (m + 2))
    (hc : g.inf c = false) (ξ : Fin m → K) :
    trace g loc u true (asInterfaceEntity g (c, s)) ξ = some (φ (plusCell g c s) (ielementGlobal g (c, s) ξ)) := by
  unfold trace traceBind plusCell
  rcases asIntersection_cases g hg c s hc with ⟨h1, h2⟩ | ⟨h1, h2, h3⟩
  · have : (if g.inf (g.nbr c s) then c else if g.ins c > g.ins (g.nbr c s) then g.nbr c s else c) = c := by
      rcases h2 with h2 | h2
      · rw [if_pos h2]
      · rw [if_neg h2, ite_self]
    simp only [h1, sideIndex, if_true, Option.map_some, this]
    rw [hu c hc, conforming hd hl g hg c s hc]
  · simp only [h1, sideIndex, if_true, Option.map_some, h2, h3, Bool.false_eq_true, if_false]
    simp only [mirrorFacet]
    rw [hu _ h2, conforming hd hl g hg _ _ h2, ielementGlobal_key, ielementGlobal_key,
      show key g (g.nbr c s, g.mirror c s) = key g (c, s) from key_mirror g hg c s hc]

theorem trace_minus (hd : m + 1 = 2 ∨ m + 1 = 3) {loc : LocalGeo K m} (hl : StdLoc loc) (g : Grid m V) (hg : g.Valid)
    (u : ℕ → (Fin (m + 1) → K) → R) (φ : ℕ → V → R) (hu : RepresentsB g u φ) (c : ℕ) (s : Fin (m + 2))
    (hc : g.inf c = false) (hn : g.inf (g.nbr c s) = false) (ξ : Fin m → K) :
    trace g loc u false (asInterfaceEntity g (c, s)) ξ = some (φ (minusCell g c s) (ielementGlobal g (c, s) ξ)) := by
  unfold trace traceBind minusCell
  rcases asIntersection_cases g hg c s hc with ⟨h1, h2⟩ | ⟨h1, h2, h3⟩
  · have h2' : ¬ g.ins c > g.ins (g.nbr c s) := by
      rcases h2 with h2 | h2
      · rw [hn] at h2; cases h2
      · exact h2
    simp only [h1, sideIndex, Bool.false_eq_true, if_false, hn, Option.map_some, if_neg h2']
    simp only [mirrorFacet]
    rw [hu _ hn, conforming hd hl g hg _ _ hn, ielementGlobal_key, ielementGlobal_key,
      show key g (g.nbr c s, g.mirror c s) = key g (c, s) from key_mirror g hg c s hc]
  · have hb : g.nbr (g.nbr c s) (g.mirror c s) = c := congrArg Prod.fst (hg.back c s hc)
    have hb' := hg.back c s hc
    simp only [h1, sideIndex, Bool.false_eq_true, if_false, h3, if_true]
    have e1 : g.nbr (mirrorFacet g (c, s)).1 (mirrorFacet g (c, s)).2 = c := hb
    simp only [e1, hc, Bool.false_eq_true, if_false, Option.map_some, hb']
    rw [hu c hc, conforming hd hl g hg c s hc]

/-- **C72** At the domain boundary the `-` trace raises an exception. -/
theorem C72_boundary (g : Grid m V) (hg : g.Valid) (loc : LocalGeo K m) (u : ℕ → (Fin (m + 1) → K) → R) (c : ℕ)
    (s : Fin (m + 2)) (hc : g.inf c = false) (hn : g.inf (g.nbr c s) = true) (ξ : Fin m → K) :
    trace g loc u false (asInterfaceEntity g (c, s)) ξ = none := by
  unfold trace traceBind
  rcases asIntersection_cases g hg c s hc with ⟨h1, -⟩ | ⟨-, h2, -⟩
  · simp [h1, hn]
  · rw [hn] at h2; cases h2

end

section
variable [Field K] [LinearOrder K] [IsStrictOrderedRing K] [AddCommGroup V] [Module K V]

/-- **C72** (2D) The traces of a bulk function at a point of an interface element are the values of the function at the
same physical point in the two adjacent elements. -/
theorem C72_trace_2d (g : Grid 1 V) (hg : g.Valid) (u : ℕ → (Fin 2 → K) → R) (φ : ℕ → V → R) (hu : RepresentsB g u φ)
    (c : ℕ) (s : Fin 3) (hc : g.inf c = false) (ξ : Fin 1 → K) :
    trace g (loc2 K) u true (asInterfaceEntity g (c, s)) ξ = some (φ (plusCell g c s) (ielementGlobal g (c, s) ξ)) ∧
    (g.inf (g.nbr c s) = false →
      trace g (loc2 K) u false (asInterfaceEntity g (c, s)) ξ = some (φ (minusCell g c s) (ielementGlobal g (c, s) ξ)) ∧
      ((plusCell g c s = c ∧ minusCell g c s = g.nbr c s) ∨ (plusCell g c s = g.nbr c s ∧ minusCell g c s = c))) := by
  refine ⟨trace_plus (Or.inl rfl) std2 g hg u φ hu c s hc ξ, fun hn =>
    ⟨trace_minus (Or.inl rfl) std2 g hg u φ hu c s hc hn ξ, ?_⟩⟩
  unfold plusCell minusCell
  rw [hn]
  by_cases h : g.ins c > g.ins (g.nbr c s) <;> simp [h]

/-- **C72** (3D) -/
theorem C72_trace_3d (g : Grid 2 V) (hg : g.Valid) (u : ℕ → (Fin 3 → K) → R) (φ : ℕ → V → R) (hu : RepresentsB g u φ)
    (c : ℕ) (s : Fin 4) (hc : g.inf c = false) (ξ : Fin 2 → K) :
    trace g (loc3 K) u true (asInterfaceEntity g (c, s)) ξ = some (φ (plusCell g c s) (ielementGlobal g (c, s) ξ)) ∧
    (g.inf (g.nbr c s) = false →
      trace g (loc3 K) u false (asInterfaceEntity g (c, s)) ξ = some (φ (minusCell g c s) (ielementGlobal g (c, s) ξ)) ∧
      ((plusCell g c s = c ∧ minusCell g c s = g.nbr c s) ∨ (plusCell g c s = g.nbr c s ∧ minusCell g c s = c))) := by
  refine ⟨trace_plus (Or.inr rfl) std3 g hg u φ hu c s hc ξ, fun hn =>
    ⟨trace_minus (Or.inr rfl) std3 g hg u φ hu c s hc hn ξ, ?_⟩⟩
  unfold plusCell minusCell
  rw [hn]
  by_cases h : g.ins c > g.ins (g.nbr c s) <;> simp [h]

end

/-- Non-vacuity of C72: the first coordinate of the physical point as bulk function, and its trace. -/
example : RepresentsB (K := ℚ) (exGrid id) (fun c x => (elementGlobal (exGrid id) c x).1) (fun _ p => p.1) ∧
    plusCell (exGrid id) 0 0 = 0 ∧ minusCell (exGrid id) 0 0 = 1 ∧ plusCell (exGrid id) 1 0 = 0 :=
  ⟨fun _ _ _ => rfl, by decide, by decide, by decide⟩

/-! ## C73 -/

section
variable [Field K] [AddCommGroup V] [Module K V]

/-- **C73** The `+` side of an interface element between two elements is the element with the smaller insertion
number; it does not matter from which of them the interface element was obtained. For equal insertion numbers see C152. -/
theorem C73_side (g : Grid m V) (hg : g.Valid) (loc : LocalGeo K m) (u : ℕ → (Fin (m + 1) → K) → R) (c : ℕ)
    (s : Fin (m + 2)) (hc : g.inf c = false) (hne : g.ins c ≠ g.ins (g.nbr c s)) (inside : Bool) (ξ : Fin m → K) :
    trace g loc u inside (asInterfaceEntity g (c, s)) ξ = trace g loc u inside (asInterfaceEntity g (mirrorFacet g (c, s))) ξ := by
  have hb := hg.back c s hc
  have hb1 : g.nbr (g.nbr c s) (g.mirror c s) = c := congrArg Prod.fst hb
  have : asInterfaceEntity g (c, s) = asInterfaceEntity g (mirrorFacet g (c, s)) := by
    rcases lt_or_gt_of_ne hne with h | h
    · have h1 : asInterfaceEntity g (c, s) = (c, s) := if_neg (by simpa using h.le)
      have h2 : asInterfaceEntity g (mirrorFacet g (c, s)) = mirrorFacet g (mirrorFacet g (c, s)) := by
        refine if_pos ?_
        simp only [mirrorFacet, hb1]
        exact h
      rw [h1, h2, hb]
    · have h1 : asInterfaceEntity g (c, s) = mirrorFacet g (c, s) := if_pos h
      have h2 : asInterfaceEntity g (mirrorFacet g (c, s)) = mirrorFacet g (c, s) := by
        refine if_neg ?_
        simp only [mirrorFacet, hb1, gt_iff_lt, not_lt]
        exact h.le
      rw [h1, h2]
  rw [this]

end

/-- Non-vacuity of C73. -/
example : (exGrid id).ins 0 ≠ (exGrid id).ins ((exGrid id).nbr 0 0) := by decide

/-- **C152** is false for equal insertion numbers: the `+` trace of the number of the element depends on which side the
interface element was obtained from. -/
theorem C152_side_false : ∃ g : Grid 1 (ℚ × ℚ), g.Valid ∧ isInterface g (0, 0) = true ∧
    trace g (loc2 ℚ) (fun c _ => c) true (asInterfaceEntity g (0, 0)) ![0] = some 0 ∧
    trace g (loc2 ℚ) (fun c _ => c) true (asInterfaceEntity g (mirrorFacet g (0, 0))) ![0] = some 1 :=
  ⟨exGrid (fun _ => 0), exGrid_valid _, by decide, rfl, rfl⟩

section normals
open Normals
variable [Field K] [LinearOrder K] [IsStrictOrderedRing K] [AddCommGroup V] [Module K V]

theorem facet_mem2 (ids : Fin 3 → ℕ) (s : Fin 3) (a : ℕ) (ha : a ∈ facetVertices (d := 2) ids s) :
    a = ids (s + 1) ∨ a = ids (s + 2) := by
  obtain ⟨t, ht, rfl⟩ := ha
  obtain ⟨i, rfl⟩ := (slots (m := 1) s t).1 ht
  fin_cases i
  · exact Or.inl rfl
  · exact Or.inr rfl

theorem facet_mem3 (ids : Fin 4 → ℕ) (s : Fin 4) (a : ℕ) (ha : a ∈ facetVertices (d := 3) ids s) :
    a = ids (s + 1) ∨ a = ids (s + 2) ∨ a = ids (s + 3) := by
  obtain ⟨t, ht, rfl⟩ := ha
  obtain ⟨i, rfl⟩ := (slots (m := 2) s t).1 ht
  fin_cases i
  · exact Or.inl rfl
  · exact Or.inr (Or.inl rfl)
  · exact Or.inr (Or.inr rfl)

theorem outer2 (X : ℕ → V2 K) (ids : Fin 3 → ℕ) (s : Fin 3) (hp : Positive2 (X ∘ ids)) (a : ℕ)
    (ha : a ∈ facetVertices (d := 2) ids s) : (bulkNormal2 (X ∘ ids) s).dot ((X (ids s)).sub (X a)) < 0 := by
  obtain ⟨h1, h2, -⟩ := C10_normal_2d (X ∘ ids) hp s
  rcases facet_mem2 ids s a ha with rfl | rfl
  · exact h2
  · simp only [Function.comp] at h1 h2 ⊢
    simp only [V2.dot, V2.sub] at h1 h2 ⊢
    linarith

theorem outer3 (X : ℕ → V3 K) (ids : Fin 4 → ℕ) (s : Fin 4) (hp : Positive3 (X ∘ ids)) (a : ℕ)
    (ha : a ∈ facetVertices (d := 3) ids s) : (bulkNormal3 (X ∘ ids) s).dot ((X (ids s)).sub (X a)) < 0 := by
  obtain ⟨h1, h1', h2, -⟩ := C10_normal_3d (X ∘ ids) hp s
  rcases facet_mem3 ids s a ha with rfl | rfl | rfl
  · exact h2
  all_goals
    simp only [Function.comp] at h1 h1' h2 ⊢
    simp only [V3.dot, V3.sub] at h1 h1' h2 ⊢
    linarith

/-- **C73** (2D) The normal of an interface element between two positively oriented elements on different sides of the
facet points from the `+` element to the `-` element: relative to any vertex `a` of the facet, the vertex of the `+`
element that is not on the facet lies behind it, that of the `-` element in front. -/
theorem C73_normal_2d (g : Grid 1 V) (hg : g.Valid) (X : ℕ → V2 K) (c : ℕ) (s : Fin 3) (hc : g.inf c = false)
    (hn : g.inf (g.nbr c s) = false) (hP : Positive2 (X ∘ (g.cell c).ids)) (hQ : Positive2 (X ∘ (g.cell (g.nbr c s)).ids))
    (hside : (X ((g.cell c).ids (s + 1))).orient (X ((g.cell c).ids (s + 2))) (X ((g.cell c).ids s)) *
      (X ((g.cell c).ids (s + 1))).orient (X ((g.cell c).ids (s + 2))) (X ((g.cell (g.nbr c s)).ids (g.mirror c s))) < 0) :
    ∃ p q : ℕ, p ∉ facetVertices (g.cell c).ids s ∧ q ∉ facetVertices (g.cell c).ids s ∧
      (∃ t, (g.cell (plusCell g c s)).ids t = p) ∧ (∃ t, (g.cell (minusCell g c s)).ids t = q) ∧
      ∀ a ∈ facetVertices (g.cell c).ids s,
        (normals2 g X (asInterfaceEntity g (c, s))).dot ((X p).sub (X a)) < 0 ∧
        0 < (normals2 g X (asInterfaceEntity g (c, s))).dot ((X q).sub (X a)) := by
  have hshare := hg.share c s hc
  have hperm : [(g.cell c).ids (s + 1), (g.cell c).ids (s + 2)].Perm
      [(g.cell (g.nbr c s)).ids (g.mirror c s + 1), (g.cell (g.nbr c s)).ids (g.mirror c s + 2)] :=
    by
    have h1 : (key g (c, s)).Perm [(g.cell c).ids (s + 1), (g.cell c).ids (s + 2)] := sortIds_perm _
    have h2 : (key g (mirrorFacet g (c, s))).Perm
      [(g.cell (g.nbr c s)).ids (g.mirror c s + 1), (g.cell (g.nbr c s)).ids (g.mirror c s + 2)] := sortIds_perm _
    rw [key_mirror g hg c s hc] at h2
    exact h1.symm.trans h2
  have hopp : bulkNormal2 (X ∘ (g.cell (g.nbr c s)).ids) (g.mirror c s) = (bulkNormal2 (X ∘ (g.cell c).ids) s).neg := by
    refine C10_opposite_2d (X ∘ (g.cell c).ids) _ s _ hP hQ ?_ hside
    rcases perm2 hperm with ⟨h1, h2⟩ | ⟨h1, h2⟩
    · exact Or.inl ⟨congrArg X h1, congrArg X h2⟩
    · exact Or.inr ⟨congrArg X h1, congrArg X h2⟩
  have o1 := outer2 X (g.cell c).ids s hP
  have o2 := outer2 X (g.cell (g.nbr c s)).ids (g.mirror c s) hQ
  rw [hshare] at o2
  have n1 : (g.cell c).ids s ∉ facetVertices (g.cell c).ids s := by
    rintro ⟨t, ht, h⟩
    exact ht ((hg.wf c hc).1 h)
  have n2 : (g.cell (g.nbr c s)).ids (g.mirror c s) ∉ facetVertices (g.cell c).ids s := by
    rw [← hshare]
    rintro ⟨t, ht, h⟩
    exact ht ((hg.wf _ hn).1 h)
  unfold normals2 plusCell minusCell
  rcases asIntersection_cases g hg c s hc with ⟨h1, h2⟩ | ⟨h1, h2, h3⟩
  · have h2' : ¬ g.ins c > g.ins (g.nbr c s) := h2.resolve_left (by simp [hn])
    rw [h1]
    refine ⟨_, _, n1, n2, ⟨s, by simp [hn, h2']⟩, ⟨g.mirror c s, by simp [h2']⟩, fun a ha => ⟨o1 a ha, ?_⟩⟩
    have := o2 a ha
    rw [hopp] at this
    simp only [V2.dot, V2.neg, V2.sub] at this ⊢
    linarith
  · rw [h1]
    refine ⟨_, _, n2, n1, ⟨g.mirror c s, by simp [hn, h3]⟩, ⟨s, by simp [h3]⟩, fun a ha => ⟨o2 a ha, ?_⟩⟩
    have := o1 a ha
    simp only [mirrorFacet]
    rw [hopp]
    simp only [V2.dot, V2.neg, V2.sub] at this ⊢
    linarith

/-- **C73** (3D) -/
theorem C73_normal_3d (g : Grid 2 V) (hg : g.Valid) (X : ℕ → V3 K) (c : ℕ) (s : Fin 4) (hc : g.inf c = false)
    (hn : g.inf (g.nbr c s) = false) (hP : Positive3 (X ∘ (g.cell c).ids)) (hQ : Positive3 (X ∘ (g.cell (g.nbr c s)).ids))
    (hside : (X ((g.cell c).ids (s + 1))).orient (X ((g.cell c).ids (s + 2))) (X ((g.cell c).ids (s + 3))) (X ((g.cell c).ids s)) *
      (X ((g.cell c).ids (s + 1))).orient (X ((g.cell c).ids (s + 2))) (X ((g.cell c).ids (s + 3)))
        (X ((g.cell (g.nbr c s)).ids (g.mirror c s))) < 0) :
    ∃ p q : ℕ, p ∉ facetVertices (g.cell c).ids s ∧ q ∉ facetVertices (g.cell c).ids s ∧
      (∃ t, (g.cell (plusCell g c s)).ids t = p) ∧ (∃ t, (g.cell (minusCell g c s)).ids t = q) ∧
      ∀ a ∈ facetVertices (g.cell c).ids s,
        (normals3 g X (asInterfaceEntity g (c, s))).dot ((X p).sub (X a)) < 0 ∧
        0 < (normals3 g X (asInterfaceEntity g (c, s))).dot ((X q).sub (X a)) := by
  have hshare := hg.share c s hc
  have hperm : [(g.cell (g.nbr c s)).ids (g.mirror c s + 1), (g.cell (g.nbr c s)).ids (g.mirror c s + 2),
      (g.cell (g.nbr c s)).ids (g.mirror c s + 3)].Perm
      [(g.cell c).ids (s + 1), (g.cell c).ids (s + 2), (g.cell c).ids (s + 3)] :=
    by
    have h1 : (key g (c, s)).Perm [(g.cell c).ids (s + 1), (g.cell c).ids (s + 2), (g.cell c).ids (s + 3)] :=
      sortIds_perm _
    have h2 : (key g (mirrorFacet g (c, s))).Perm
      [(g.cell (g.nbr c s)).ids (g.mirror c s + 1), (g.cell (g.nbr c s)).ids (g.mirror c s + 2),
        (g.cell (g.nbr c s)).ids (g.mirror c s + 3)] := sortIds_perm _
    rw [key_mirror g hg c s hc] at h2
    exact h2.symm.trans h1
  have hopp : bulkNormal3 (X ∘ (g.cell (g.nbr c s)).ids) (g.mirror c s) = (bulkNormal3 (X ∘ (g.cell c).ids) s).neg :=
    C10_opposite_3d (X ∘ (g.cell c).ids) _ s _ hP hQ (by simpa using hperm.map X) hside
  have o1 := outer3 X (g.cell c).ids s hP
  have o2 := outer3 X (g.cell (g.nbr c s)).ids (g.mirror c s) hQ
  rw [hshare] at o2
  have n1 : (g.cell c).ids s ∉ facetVertices (g.cell c).ids s := by
    rintro ⟨t, ht, h⟩
    exact ht ((hg.wf c hc).1 h)
  have n2 : (g.cell (g.nbr c s)).ids (g.mirror c s) ∉ facetVertices (g.cell c).ids s := by
    rw [← hshare]
    rintro ⟨t, ht, h⟩
    exact ht ((hg.wf _ hn).1 h)
  unfold normals3 plusCell minusCell
  rcases asIntersection_cases g hg c s hc with ⟨h1, h2⟩ | ⟨h1, h2, h3⟩
  · have h2' : ¬ g.ins c > g.ins (g.nbr c s) := h2.resolve_left (by simp [hn])
    rw [h1]
    refine ⟨_, _, n1, n2, ⟨s, by simp [hn, h2']⟩, ⟨g.mirror c s, by simp [h2']⟩, fun a ha => ⟨o1 a ha, ?_⟩⟩
    have := o2 a ha
    rw [hopp] at this
    simp only [V3.dot, V3.neg, V3.sub] at this ⊢
    linarith
  · rw [h1]
    refine ⟨_, _, n2, n1, ⟨g.mirror c s, by simp [hn, h3]⟩, ⟨s, by simp [h3]⟩, fun a ha => ⟨o2 a ha, ?_⟩⟩
    have := o1 a ha
    simp only [mirrorFacet]
    rw [hopp]
    simp only [V3.dot, V3.neg, V3.sub] at this ⊢
    linarith

end normals

/-- Non-vacuity of C73: positions of the example grid; both elements are positively oriented, on different sides. -/
example : let X : ℕ → Normals.V2 ℚ := fun v => ⟨((exGrid id).pos v).1, ((exGrid id).pos v).2⟩
    Normals.Positive2 (X ∘ ((exGrid id).cell 0).ids) ∧ Normals.Positive2 (X ∘ ((exGrid id).cell 1).ids) ∧
    (X 1).orient (X 2) (X 0) * (X 1).orient (X 2) (X 3) < 0 := by
  have e : (![0, 1, 2] : Fin 3 → ℕ) 2 = 2 ∧ (![3, 2, 1] : Fin 3 → ℕ) 2 = 1 := ⟨rfl, rfl⟩
  simp only [Normals.Positive2, Normals.V2.orient, exGrid, exIds, Function.comp, e]
  norm_num

/-! ## C74 -/

section
variable [Field K] [AddCommGroup V] [Module K V]

theorem mapM_getD {α β : Type*} (f : α → Option β) (d : β) (l : List α) (r : List β) (h : l.mapM f = some r) :
    r = l.map (fun a => (f a).getD d) := by
  induction l generalizing r with
  | nil => simpa using h.symm
  | cons a l ih =>
    rw [List.mapM_cons] at h
    cases ha : f a with
    | none => rw [ha] at h; cases h
    | some b =>
      cases hl : l.mapM f with
      | none => rw [ha, hl] at h; cases h
      | some r' =>
        rw [ha, hl] at h
        cases h
        simp [ha, ih r' hl]

theorem mapM_some {α β : Type*} (f : α → Option β) (l : List α) (h : ∀ a ∈ l, (f a).isSome) : (l.mapM f).isSome := by
  induction l with
  | nil => rfl
  | cons a l ih =>
    obtain ⟨b, hb⟩ := Option.isSome_iff_exists.1 (h a (by simp))
    obtain ⟨r, hr⟩ := Option.isSome_iff_exists.1 (ih fun x hx => h x (by simp [hx]))
    rw [List.mapM_cons, hb, hr]
    rfl

theorem mapM_isSome {α β : Type*} (f : α → Option β) (l : List α) (h : (l.mapM f).isSome) : ∀ a ∈ l, (f a).isSome := by
  induction l with
  | nil => simp
  | cons a l ih =>
    rw [List.mapM_cons] at h
    cases ha : f a with
    | none => rw [ha] at h; cases h
    | some b =>
      cases hl : l.mapM f with
      | none => rw [ha, hl] at h; cases h
      | some r' =>
        intro x hx
        rcases List.mem_cons.1 hx with rfl | hx
        · rw [ha]; rfl
        · exact ih (by rw [hl]; rfl) x hx

/-- The grid with the shifts in place of the positions. -/
def shifted (g : Grid m V) (idx : ℕ → ℕ) (shifts : List V) : Grid m V :=
  { g with pos := fun id => (vertexShift g idx shifts id).getD 0 }

theorem shifted_valid (g : Grid m V) (idx : ℕ → ℕ) (shifts : List V) (hg : g.Valid) : (shifted g idx shifts).Valid :=
  ⟨hg.wf, hg.back, hg.share, hg.distinct⟩

theorem edgeMovement_eq (g : Grid m V) (idx : ℕ → ℕ) (shifts : List V) (c : ℕ) (x : Fin (m + 1) → K) (v : V)
    (h : edgeMovement g idx shifts c x = some v) : v = elementGlobal (shifted g idx shifts) c x := by
  unfold edgeMovement at h
  obtain ⟨l, hl, rfl⟩ := Option.map_eq_some_iff.1 h
  rw [mapM_getD _ 0 _ _ hl]
  unfold elementGlobal
  congr 1
  funext k
  simp [elementCorner, shifted, List.getD_eq_getElem?_getD]

/-- **C74** Each corner of an element is moved by the shift given for it if it is an interface vertex, and not at all
otherwise. -/
theorem C74_vertices (g : Grid m V) (idx : ℕ → ℕ) (shifts : List V) (c : ℕ) (k : Fin (m + 2)) (v : V)
    (h : edgeMovement g idx shifts c (refCorner K k) = some v) :
    (g.flag ((g.cell c).ids ((g.cell c).c k)) = true → shifts[idx ((g.cell c).ids ((g.cell c).c k))]? = some v) ∧
    (g.flag ((g.cell c).ids ((g.cell c).c k)) = false → v = 0) := by
  have hv := edgeMovement_eq g idx shifts c _ v h
  unfold elementGlobal at hv
  rw [affineGlobal_refCorner] at hv
  have hs : (vertexShift g idx shifts ((g.cell c).ids ((g.cell c).c k))).isSome := by
    unfold edgeMovement at h
    obtain ⟨l, hl, -⟩ := Option.map_eq_some_iff.1 h
    exact mapM_isSome _ _ (by rw [hl]; rfl) k (List.mem_finRange k)
  obtain ⟨w, hw⟩ := Option.isSome_iff_exists.1 hs
  have hvw : v = w := by
    rw [hv]
    simp [elementCorner, shifted, hw]
  rw [hvw]
  unfold vertexShift at hw
  constructor
  · intro hf
    rwa [if_pos hf] at hw
  · intro hf
    rw [hf] at hw
    simpa using hw.symm

theorem movement_facet (hd : m + 1 = 2 ∨ m + 1 = 3) {loc : LocalGeo K m} (hl : StdLoc loc) (g : Grid m V) (hg : g.Valid)
    (idx : ℕ → ℕ) (shifts : List V) (c : ℕ) (s : Fin (m + 2)) (hc : g.inf c = false) (i : ℕ)
    (hi : sideIndex g (c, s) true = some i) (ξ : Fin m → K) (v : V)
    (h : edgeMovement g idx shifts c (sideGlobal loc i ξ) = some v) : v = ielementGlobal (shifted g idx shifts) (c, s) ξ := by
  rw [edgeMovement_eq g idx shifts c _ v h]
  simp only [sideIndex, if_true, Option.some.injEq] at hi
  rw [← hi]
  exact conforming hd hl (shifted g idx shifts) (shifted_valid g idx shifts hg) c s hc ξ

theorem movement_interface (hd : m + 1 = 2 ∨ m + 1 = 3) {loc : LocalGeo K m} (hl : StdLoc loc) (g : Grid m V) (hg : g.Valid)
    (idx : ℕ → ℕ) (shifts : List V) (c : ℕ) (s : Fin (m + 2)) (hc : g.inf c = false) (hf : isInterface g (c, s) = true)
    (i : ℕ) (hi : sideIndex g (c, s) true = some i) (ξ : Fin m → K) (v : V)
    (h : edgeMovement g idx shifts c (sideGlobal loc i ξ) = some v) :
    interfaceEdgeMovement g idx shifts (asInterfaceEntity g (c, s)) ξ = some v := by
  have hv := movement_facet hd hl g hg idx shifts c s hc i hi ξ v h
  have hkey : key g (asInterfaceEntity g (c, s)) = key g (c, s) := by
    unfold asInterfaceEntity
    split
    · exact key_mirror g hg c s hc
    · rfl
  have hsome : ∀ a ∈ key g (c, s), vertexShift g idx shifts a = shifts[idx a]? ∧ (shifts[idx a]?).isSome := by
    intro a ha
    have hfa : g.flag a = true := by
      unfold isInterface at hf
      rw [Bool.and_eq_true, List.all_eq_true] at hf
      exact hf.1 a ha
    have e : vertexShift g idx shifts a = shifts[idx a]? := by simp [vertexShift, hfa]
    refine ⟨e, ?_⟩
    rw [← e]
    rw [mem_key] at ha
    obtain ⟨t, -, rfl⟩ := ha
    unfold edgeMovement at h
    obtain ⟨l, hl', -⟩ := Option.map_eq_some_iff.1 h
    obtain ⟨ids, hids, he⟩ := (hg.wf c hc).cases
    have hcs : (g.cell c).c ((computeCGALIndices ids).symm t) = t := by rw [he]; simp
    have := mapM_isSome _ _ (by rw [hl']; rfl) ((computeCGALIndices ids).symm t) (List.mem_finRange _)
    rwa [hcs] at this
  unfold interfaceEdgeMovement
  have hm : ∀ (ids : Fin (m + 2) → ℕ) (l : List (Fin (m + 2))),
      List.mapM (fun t => shifts[idx (ids t)]?) l = List.mapM (fun a => shifts[idx a]?) (l.map ids) := by
    intro ids l
    rw [List.mapM_map]
    rfl
  rw [hm, map_ids_interfaceIndices]
  change Option.map _ (List.mapM (fun a => shifts[idx a]?) (key g (asInterfaceEntity g (c, s)))) = _
  rw [hkey]
  obtain ⟨r, hr⟩ := Option.isSome_iff_exists.1 (mapM_some (fun a => shifts[idx a]?) (key g (c, s)) fun a ha => (hsome a ha).2)
  rw [hr, hv, ielementGlobal_key]
  simp only [Option.map_some, Option.some.injEq]
  rw [mapM_getD _ 0 _ _ hr]
  have : List.map (fun a => (shifts[idx a]?).getD 0) (key g (c, s))
      = List.map (shifted g idx shifts).pos (key (shifted g idx shifts) (c, s)) := by
    refine List.map_congr_left fun a ha => ?_
    simp [shifted, (hsome a ha).1]
  rw [this]

theorem movement_continuous (hd : m + 1 = 2 ∨ m + 1 = 3) {loc : LocalGeo K m} (hl : StdLoc loc) (g : Grid m V)
    (hg : g.Valid) (idx : ℕ → ℕ) (shifts : List V) (c : ℕ) (s : Fin (m + 2)) (hc : g.inf c = false)
    (hn : g.inf (g.nbr c s) = false) (i j : ℕ) (hi : sideIndex g (c, s) true = some i)
    (hj : sideIndex g (c, s) false = some j) (ξ : Fin m → K) (v w : V)
    (hv : edgeMovement g idx shifts c (sideGlobal loc i ξ) = some v)
    (hw : edgeMovement g idx shifts (g.nbr c s) (sideGlobal loc j ξ) = some w) : v = w := by
  have h1 := movement_facet hd hl g hg idx shifts c s hc i hi ξ v hv
  have hj' : sideIndex g (mirrorFacet g (c, s)) true = some j := by
    simpa [sideIndex, hn] using hj
  have h2 := movement_facet hd hl g hg idx shifts (g.nbr c s) (g.mirror c s) hn j hj' ξ w hw
  rw [h1, h2, ielementGlobal_key, ielementGlobal_key]
  have := key_mirror g hg c s hc
  have h3 : key (shifted g idx shifts) (g.nbr c s, g.mirror c s) = key (shifted g idx shifts) (c, s) := this
  rw [h3]

end

section
variable [Field K] [LinearOrder K] [IsStrictOrderedRing K] [AddCommGroup V] [Module K V]

/-- **C74** (2D) On a facet of the interface the movement of the bulk grid and the movement of the interface grid agree at
each point. -/
theorem C74_interface_2d (g : Grid 1 V) (hg : g.Valid) (idx : ℕ → ℕ) (shifts : List V) (c : ℕ) (s : Fin 3)
    (hc : g.inf c = false) (hf : isInterface g (c, s) = true) (i : ℕ) (hi : sideIndex g (c, s) true = some i)
    (ξ : Fin 1 → K) (v : V) (h : edgeMovement g idx shifts c (sideGlobal (loc2 K) i ξ) = some v) :
    interfaceEdgeMovement g idx shifts (asInterfaceEntity g (c, s)) ξ = some v :=
  movement_interface (Or.inl rfl) std2 g hg idx shifts c s hc hf i hi ξ v h

/-- **C74** (3D) -/
theorem C74_interface_3d (g : Grid 2 V) (hg : g.Valid) (idx : ℕ → ℕ) (shifts : List V) (c : ℕ) (s : Fin 4)
    (hc : g.inf c = false) (hf : isInterface g (c, s) = true) (i : ℕ) (hi : sideIndex g (c, s) true = some i)
    (ξ : Fin 2 → K) (v : V) (h : edgeMovement g idx shifts c (sideGlobal (loc3 K) i ξ) = some v) :
    interfaceEdgeMovement g idx shifts (asInterfaceEntity g (c, s)) ξ = some v :=
  movement_interface (Or.inr rfl) std3 g hg idx shifts c s hc hf i hi ξ v h

/-- **C74** (2D) The movement is continuous: both elements at a facet move each of its points by the same vector. -/
theorem C74_continuous_2d (g : Grid 1 V) (hg : g.Valid) (idx : ℕ → ℕ) (shifts : List V) (c : ℕ) (s : Fin 3)
    (hc : g.inf c = false) (hn : g.inf (g.nbr c s) = false) (i j : ℕ) (hi : sideIndex g (c, s) true = some i)
    (hj : sideIndex g (c, s) false = some j) (ξ : Fin 1 → K) (v w : V)
    (hv : edgeMovement g idx shifts c (sideGlobal (loc2 K) i ξ) = some v)
    (hw : edgeMovement g idx shifts (g.nbr c s) (sideGlobal (loc2 K) j ξ) = some w) : v = w :=
  movement_continuous (Or.inl rfl) std2 g hg idx shifts c s hc hn i j hi hj ξ v w hv hw

/-- **C74** (3D) -/
theorem C74_continuous_3d (g : Grid 2 V) (hg : g.Valid) (idx : ℕ → ℕ) (shifts : List V) (c : ℕ) (s : Fin 4)
    (hc : g.inf c = false) (hn : g.inf (g.nbr c s) = false) (i j : ℕ) (hi : sideIndex g (c, s) true = some i)
    (hj : sideIndex g (c, s) false = some j) (ξ : Fin 2 → K) (v w : V)
    (hv : edgeMovement g idx shifts c (sideGlobal (loc3 K) i ξ) = some v)
    (hw : edgeMovement g idx shifts (g.nbr c s) (sideGlobal (loc3 K) j ξ) = some w) : v = w :=
  movement_continuous (Or.inr rfl) std3 g hg idx shifts c s hc hn i j hi hj ξ v w hv hw

end

/-- **C74** The movement is defined if there is a shift for each interface vertex. -/
theorem C74_defined [Field K] [AddCommGroup V] [Module K V] (g : Grid m V) (idx : ℕ → ℕ) (shifts : List V)
    (h : ∀ id, g.flag id = true → idx id < shifts.length) (c : ℕ) (x : Fin (m + 1) → K) :
    ∃ v, edgeMovement g idx shifts c x = some v := by
  have : ((List.finRange (m + 2)).mapM fun i => vertexShift g idx shifts ((g.cell c).ids ((g.cell c).c i))).isSome := by
    refine mapM_some _ _ fun k _ => ?_
    unfold vertexShift
    split
    · rename_i hf
      rw [List.getElem?_eq_getElem (h _ hf)]
      rfl
    · rfl
  obtain ⟨l, hl⟩ := Option.isSome_iff_exists.1 this
  exact ⟨_, by unfold edgeMovement; rw [hl]; rfl⟩

/-- Non-vacuity of C74: shifts for the two vertices of the example interface. -/
example : ∀ id, (exGrid (fun c => c)).flag id = true → (fun v => v - 1) id < ([(1, 0), (0, 1)] : List (ℚ × ℚ)).length := by
  intro id h
  simp only [exGrid, decide_eq_true_eq] at h
  rcases h with rfl | rfl <;> decide

end Verif.Trace
