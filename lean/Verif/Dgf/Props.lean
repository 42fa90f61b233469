import Verif.Dgf.Model

/-!
# Grids of DGF files (properties C170, C171, C172)
-/

namespace Verif.Dgf

open Markers

/-- Specification: the grid has the elements of the file: as many, and the element with insertion index `k` has the vertices of the `k`-th of
the file and no other element has this index. -/
structure Holds {d : Nat} (elements : List (Fin (d + 1) → Nat)) (cells : List (Cell d)) : Prop where
  count : cells.length = elements.length
  element : ∀ (k : Nat) (v : Fin (d + 1) → Nat), elements[k]? = some v → ∃ c ∈ cells, c.insertionIndex = k ∧
    Finset.univ.image c.vertex = Finset.univ.image v ∧ ∀ c' ∈ cells, c'.insertionIndex = k → c' = c

theorem inserted_calls {d : Nat} {K : Type*} (file : File d K) : inserted (calls file) = file.elements.map (·, 0) := by
  unfold calls
  have h1 : ∀ (l : List (Fin d → K)) (r : List (FCall d K)), inserted (l.map .vertex ++ r) = inserted r := by
    intro l r
    induction l with
    | nil => rfl
    | cons p l ih => simpa [inserted] using ih
  rw [h1]
  induction file.elements with
  | nil => rfl
  | cons v l ih => simp [inserted, ih]

theorem vertices_calls {d : Nat} {K : Type*} (h : List (FCall d K)) (f : Fac d K) :
    (h.foldl fstep f).vertices = f.vertices ++ h.filterMap fun | .vertex p => some p | _ => none := by
  induction h generalizing f with
  | nil => simp
  | cons c h ih =>
    rw [List.foldl_cons, ih]
    cases c <;> simp [fstep, Fac.insertVertex, Fac.insertElement, Fac.insertElement']

section
variable {K : Type*} [Field K] [LinearOrder K]

theorem generated {d : Nat} {orient : (Fin (d + 1) → Nat) → Fin (d + 1) → Nat}
    (ho : ∀ v, Finset.univ.image (orient v) = Finset.univ.image v) {x : Nat → K} {input : Read d K} {o : Obj d K}
    (h : Generate orient x (Obj.init d K) input (some (true, o))) :
    ∃ file cells, input = .yes file ∧ o.grid = some cells ∧ Holds file.elements cells ∧ o.fac.vertices = file.vtx := by
  cases h with
  | @yes file bnd cells hb hc =>
    refine ⟨file, cells, rfl, rfl, ?_, ?_⟩
    · obtain ⟨h1, h2⟩ := created orient ho x (calls file) cells hc
      rw [inserted_calls] at h1 h2
      refine ⟨by simpa using h1, fun k v hk => ?_⟩
      obtain ⟨c, hc, e1, -, e3, e4⟩ := h2 k v 0 (by simp [hk])
      exact ⟨c, hc, e1, e3, e4⟩
    · show ((calls file).foldl fstep (Fac.init d K)).vertices = _
      rw [vertices_calls]
      simp [Fac.init, calls, List.filterMap_append, List.filterMap_map, Function.comp_def]

theorem orient2_same (x y : Nat → K) (v : Fin 3 → Nat) :
    Finset.univ.image (Factory.orient2 x y v) = Finset.univ.image v := by
  unfold Factory.orient2
  simp only
  split
  · ext n
    simp only [Finset.mem_image, Finset.mem_univ, true_and, Fin.exists_fin_succ]
    simp
    tauto
  · rfl

theorem fromFile {d : Nat} {orient : (Fin (d + 1) → Nat) → Fin (d + 1) → Nat}
    (ho : ∀ v, Finset.univ.image (orient v) = Finset.univ.image v) {x : Nat → K} {found : Bool} {input : Read d K} {o : Obj d K}
    (h : FromFile orient x found input (some o)) :
    found = true ∧ ∃ file cells, input = .yes file ∧ o.grid = some cells ∧ Holds file.elements cells ∧ o.fac.vertices = file.vtx := by
  cases h with
  | generated hf h => exact ⟨hf, generated ho h⟩

/-- **C170** in 2D: if the constructor with the name of a file returns, then the file was found and could be read, and there is a grid
with the vertices and elements of the file. -/
theorem C170_file_2d (x y : Nat → K) {found : Bool} {input : Read 2 K} {o : Obj 2 K}
    (h : FromFile (Factory.orient2 x y) x found input (some o)) :
    found = true ∧ ∃ file cells, input = .yes file ∧ o.grid = some cells ∧ Holds file.elements cells ∧ o.fac.vertices = file.vtx :=
  fromFile (orient2_same x y) h

/-- **C170** in 3D. -/
theorem C170_file_3d (x : Nat → K) {found : Bool} {input : Read 3 K} {o : Obj 3 K}
    (h : FromFile Factory.orient3 x found input (some o)) :
    found = true ∧ ∃ file cells, input = .yes file ∧ o.grid = some cells ∧ Holds file.elements cells ∧ o.fac.vertices = file.vtx :=
  fromFile (fun _ => rfl) h

/-- **C170**: the constructor with the name of a file throws whenever there is no such file or the file is not in the format. -/
theorem C170_throws {d : Nat} (orient : (Fin (d + 1) → Nat) → Fin (d + 1) → Nat) (x : Nat → K) {found : Bool} {input : Read d K}
    (hbad : found = false ∨ ∀ file, input ≠ .yes file) {r : Option (Obj d K)} (h : FromFile orient x found input r) : r = none := by
  cases h with
  | generated hf h =>
    cases h with
    | @yes file _ _ _ _ =>
      rcases hbad with hb | hb
      · rw [hb] at hf
        cases hf
      · exact absurd rfl (hb file)
  | notFound _ => rfl
  | exception _ _ => rfl
  | no _ _ => rfl

/-- **C170**: the constructor with a stream: the same if the stream is in the format. -/
theorem C170_stream_2d (x y : Nat → K) {seekable : Bool} {file : File 2 K} {o : Obj 2 K}
    (h : FromStream (Factory.orient2 x y) x seekable (.yes file) (some o)) :
    seekable = true ∧ ∃ cells, o.grid = some cells ∧ Holds file.elements cells ∧ o.fac.vertices = file.vtx := by
  cases h with
  | @generated b _ hs h =>
    obtain rfl : b = true := by cases h; rfl
    obtain ⟨file', cells, he, h1, h2, h3⟩ := generated (orient2_same x y) h
    cases he
    exact ⟨hs, cells, h1, h2, h3⟩

/-- **C170** in 3D. -/
theorem C170_stream_3d (x : Nat → K) {seekable : Bool} {file : File 3 K} {o : Obj 3 K}
    (h : FromStream Factory.orient3 x seekable (.yes file) (some o)) :
    seekable = true ∧ ∃ cells, o.grid = some cells ∧ Holds file.elements cells ∧ o.fac.vertices = file.vtx := by
  cases h with
  | @generated b _ hs h =>
    obtain rfl : b = true := by cases h; rfl
    obtain ⟨file', cells, he, h1, h2, h3⟩ := generated (orient := Factory.orient3) (fun _ => rfl) h
    cases he
    exact ⟨hs, cells, h1, h2, h3⟩

/-- **C171** (not guaranteed): a stream that can be reset but is not in the format never leads to an exception of the reader: the constructor returns
and the pointer to the grid is not initialised. -/
theorem C171_stream_false {d : Nat} (orient : (Fin (d + 1) → Nat) → Fin (d + 1) → Nat) (x : Nat → K) :
    (∃ o : Obj d K, FromStream orient x true .no (some o)) ∧
      ∀ r : Option (Obj d K), FromStream orient x true .no r → ∃ o, r = some o ∧ o.grid = none := by
  refine ⟨⟨_, .generated rfl .no⟩, fun r h => ?_⟩
  cases h with
  | notSeekable h => cases h
  | exception _ h => cases h
  | generated _ h =>
    cases h
    exact ⟨_, rfl, rfl⟩

/-- **C172** (not guaranteed): the parameters of a file are never returned: whatever the file, `parameter` throws for every element and every
vertex. -/
theorem C172_parameter_false {d : Nat} (o : Obj d K) (i : Nat) : elementParameter o i = none ∧ vertexParameter o i = none := by
  simp [elementParameter, vertexParameter, numParameters]

end

/-- A file with a square of two triangles, a boundary id on one side and a parameter for each element. -/
def exFile : File 2 ℚ where
  vtx := [![0, 0], ![1, 0], ![0, 1], ![1, 1]]
  elements := [![1, 2, 3], ![0, 1, 2]]
  facemap := [([0, 1], 7)]
  elParams := [[1/2], [3]]
  vtxParams := []

/-- The constructor returns for this file (hypotheses of C170), with the second element of the file first in the grid. -/
theorem exFile_read : ∃ o cells, FromFile (Factory.orient2 exX exY) exX true (.yes exFile) (some o) ∧ o.grid = some cells ∧
    cells.map Cell.insertionIndex = [1, 0] ∧ o.elParams = [[1/2], [3]] := by
  refine ⟨_, _, .generated rfl (.yes (bnd := ?_) ?_ ⟨[(![0, 1, 2], 1, 0), (![1, 2, 3], 0, 0)], ?_, ?_, rfl⟩), rfl, rfl, rfl⟩
  · exact (BoundaryIds.dgfFaces (BoundaryIds.dgfVertices exFile.vtx.length) exFile.facemap).get (by decide +kernel)
  · exact (Option.some_get _).symm
  · exact List.Perm.swap _ _ _
  · simp only [sumX, exX]
    decide +kernel

/-- **C172** for this file: the parameter of the first element is 1/2 in the file, `parameter` throws. -/
theorem C172_file_false : ∃ (o : Obj 2 ℚ) (cells : List (Cell 2)) (c : Cell 2),
    FromFile (Factory.orient2 exX exY) exX true (.yes exFile) (some o) ∧ o.grid = some cells ∧ c ∈ cells ∧
      exFile.elParams[c.insertionIndex]? = some [1/2] ∧ elementParameter o c.insertionIndex = none := by
  obtain ⟨o, cells, h, hg, hi, -⟩ := exFile_read
  have : 0 ∈ cells.map Cell.insertionIndex := by rw [hi]; simp
  obtain ⟨c, hc, h0⟩ := List.mem_map.1 this
  exact ⟨o, cells, c, h, hg, hc, by rw [h0]; rfl, (C172_parameter_false o _).1⟩

end Verif.Dgf
