import Verif.Trace.Props

/-!
# C219, C220: displacements given as arrays

`edgeMovement(grid, shifts)` and `interfaceEdgeMovement(igrid, shifts)` receive `shifts` as `pybind11::array_t<double>`. A list is converted to a new contiguous array; an array of
doubles is passed as it is, with its strides (the template argument `c_style` is not given).
-/

namespace Verif.Trace

open RefElem

variable {K : Type} {dim : ℕ}

/-- A numpy array of two dimensions: a block of memory, the position of the first entry in it, the shape and the strides (in units of `double`, possibly negative). (Models:
`pybind11::buffer_info`; python/dune/mmesh/_utility.py:198-205, 256-264.) -/
structure NdArray (K : Type) where
  block : List K
  base : ℤ
  rows : ℕ
  cols : ℕ
  stride0 : ℤ
  stride1 : ℤ

/-- The memory at the distance `k` from `buffer.ptr`; `none` if this is outside of the block (undefined behaviour). (Models: `ptr[k]`, python/dune/mmesh/_utility.py:210, 269.) -/
def NdArray.read (a : NdArray K) (k : ℤ) : Option K := if 0 ≤ a.base + k then a.block[(a.base + k).toNat]? else none

/-- python/dune/mmesh/_utility.py:207-210, 266-269: the shifts `ptr[dim*i+d]`. `n = buffer.shape[0]`. -/
def shiftsOf (dim : ℕ) (a : NdArray K) : Option (List (Fin dim → K)) :=
  (List.range a.rows).mapM fun i =>
    if h : ∀ d : Fin dim, (a.read ((dim * i + d.val : ℕ) : ℤ)).isSome then some fun d => (a.read ((dim * i + d.val : ℕ) : ℤ)).get (h d) else none

/-- The array made from a list of rows. (Models: the conversion of a list by numpy; python/dune/mmesh/_utility.py:229, 287 `args=[grid, shifts]`.) -/
def ofRows (rows : List (Fin dim → K)) : NdArray K :=
  { block := rows.flatMap List.ofFn, base := 0, rows := rows.length, cols := dim, stride0 := dim, stride1 := 1 }

/-! ## Specification -/

/-- Entry `(i, j)` of the array, as seen in Python. -/
def NdArray.entry (a : NdArray K) (i j : ℕ) : Option K := a.read (i * a.stride0 + j * a.stride1)

/-- All entries of the array are in the block. -/
def NdArray.Ok (a : NdArray K) : Prop := ∀ i < a.rows, ∀ j < a.cols, (a.entry i j).isSome

/-- The rows of the array, as seen in Python, are the vectors `l`. -/
def NdArray.IsRows (a : NdArray K) (l : List (Fin dim → K)) : Prop :=
  a.cols = dim ∧ l.length = a.rows ∧ ∀ i (h : i < l.length), ∀ d : Fin dim, a.entry i d = some (l[i] d)

/-- One row follows the other, and one entry of a row the other. -/
def NdArray.Contiguous (a : NdArray K) : Prop := (a.rows ≤ 1 ∨ a.stride0 = a.cols) ∧ (a.cols ≤ 1 ∨ a.stride1 = 1)

/-! ## Proofs -/

theorem mapM_eq {α β : Type} {f : α → Option β} {g : α → β} : ∀ {l : List α}, (∀ x ∈ l, f x = some (g x)) → l.mapM f = some (l.map g)
  | [], _ => rfl
  | x :: xs, h => by
    rw [List.mapM_cons, h x (by simp), mapM_eq (l := xs) fun y hy => h y (by simp [hy])]
    rfl

theorem mapM_forall {α β : Type} {f : α → Option β} : ∀ {l : List α} {r : List β}, l.mapM f = some r → List.Forall₂ (fun x y => f x = some y) l r
  | [], r, h => by
    rw [List.mapM_nil] at h
    cases h
    exact .nil
  | x :: xs, r, h => by
    rw [List.mapM_cons] at h
    cases hx : f x with
    | none => rw [hx] at h; cases h
    | some y =>
      rw [hx] at h
      cases hxs : xs.mapM f with
      | none => simp [hxs] at h
      | some ys =>
        simp only [hxs, Option.bind_eq_bind, Option.bind_some, Option.pure_def, Option.some.injEq] at h
        subst h
        exact .cons hx (mapM_forall hxs)

theorem shiftsOf_eq {a : NdArray K} {l : List (Fin dim → K)} (hl : l.length = a.rows)
    (h : ∀ i (hi : i < l.length), ∀ d : Fin dim, a.read ((dim * i + d.val : ℕ) : ℤ) = some (l[i] d)) : shiftsOf dim a = some l := by
  unfold shiftsOf
  by_cases hne : l = []
  · subst hne
    rw [← hl]
    rfl
  obtain ⟨x, xs, rfl⟩ := List.exists_cons_of_ne_nil hne
  rw [mapM_eq (g := fun i => ((x :: xs).getD i x))]
  · congr 1
    refine List.ext_getElem (by simp [← hl]) fun i h1 h2 => ?_
    simp [List.getD, List.getElem?_eq_getElem h2]
  · intro i hi
    have hi' : i < (x :: xs).length := by rw [hl]; simpa using hi
    have key := h i hi'
    rw [dif_pos fun d => by rw [key d]; rfl]
    congr 1
    funext d
    simp only [key d, Option.get_some, List.getD, List.getElem?_eq_getElem hi', Option.getD_some]

/-- **C219** From a contiguous array with one column for each coordinate the functions read its rows. -/
theorem C219_rows {a : NdArray K} {l : List (Fin dim → K)} (hc : a.Contiguous) (hr : a.IsRows l) : shiftsOf dim a = some l := by
  obtain ⟨h1, h2, h3⟩ := hr
  refine shiftsOf_eq h2 fun i hi d => ?_
  rw [← h3 i hi d]
  unfold NdArray.entry
  congr 1
  have e0 : (i : ℤ) * a.stride0 = dim * i := by
    rcases hc.1 with h | h
    · have : i = 0 := by omega
      subst this
      simp
    · rw [h, h1]
      ring
  have e1 : ((d.val : ℕ) : ℤ) * a.stride1 = d.val := by
    rcases hc.2 with h | h
    · have : d.val = 0 := by have := d.isLt; omega
      rw [this]
      simp
    · rw [h]
      ring
  rw [e0, e1]
  push_cast
  rfl

theorem flatMap_get (l : List (Fin dim → K)) : ∀ i (h : i < l.length), ∀ d : Fin dim, (l.flatMap List.ofFn)[dim * i + d.val]? = some (l[i] d) := by
  induction l with
  | nil => intro i h; simp at h
  | cons x xs ih =>
    intro i h d
    rw [List.flatMap_cons]
    cases i with
    | zero =>
      rw [List.getElem?_append_left (by simp)]
      simp
    | succ j =>
      rw [List.getElem?_append_right (by simp [Nat.mul_succ]; omega)]
      have : dim * (j + 1) + d.val - (List.ofFn x).length = dim * j + d.val := by
        rw [List.length_ofFn, Nat.mul_succ]
        omega
      rw [this, ih j (by simpa using h) d]
      rfl

theorem ofRows_isRows (l : List (Fin dim → K)) : (ofRows l).IsRows l := by
  refine ⟨rfl, rfl, fun i h d => ?_⟩
  rw [← flatMap_get l i h d]
  unfold NdArray.entry NdArray.read ofRows
  have : (i : ℤ) * dim + d.val * 1 = ((dim * i + d.val : ℕ) : ℤ) := by
    push_cast
    ring
  simp only [this, zero_add]
  rw [if_pos (by positivity), Int.toNat_natCast]

/-- **C219** From a list of vectors the functions read these vectors. -/
theorem C219_list (l : List (Fin dim → K)) : shiftsOf dim (ofRows l) = some l := C219_rows ⟨Or.inr rfl, Or.inr rfl⟩ (ofRows_isRows l)

/-- **C219** The function made by `edgeMovement` from a contiguous array: at a corner on the interface its coordinates are the entries of the array in the row of this vertex, at the other
corners it is zero. -/
theorem C219_edgeMovement {F : Type} [Field F] {m : ℕ} {a : NdArray F} {l : List (Fin dim → F)} (hc : a.Contiguous) (hr : a.IsRows l) (g : Grid m (Fin dim → F)) (idx : ℕ → ℕ)
    (c : ℕ) (k : Fin (m + 2)) (v : Fin dim → F) (h : (shiftsOf dim a).bind (fun s => edgeMovement g idx s c (refCorner F k)) = some v) :
    (g.flag ((g.cell c).ids ((g.cell c).c k)) = true → ∀ d : Fin dim, a.entry (idx ((g.cell c).ids ((g.cell c).c k))) d = some (v d)) ∧
    (g.flag ((g.cell c).ids ((g.cell c).c k)) = false → v = 0) := by
  rw [C219_rows hc hr, Option.bind_some] at h
  obtain ⟨h1, h2⟩ := C74_vertices g idx l c k v h
  refine ⟨fun hf d => ?_, h2⟩
  obtain ⟨hi, hv⟩ := List.getElem?_eq_some_iff.1 (h1 hf)
  rw [hr.2.2 _ hi d, hv]

/-- **C220** What is read in any case: entry `(i, d)` comes from the place `dim i + d` after the first entry, whatever the shape and the strides. -/
theorem C220_place_partial {a : NdArray K} {l : List (Fin dim → K)} (h : shiftsOf dim a = some l) :
    l.length = a.rows ∧ ∀ i (hi : i < l.length), ∀ d : Fin dim, a.read ((dim * i + d.val : ℕ) : ℤ) = some (l[i] d) := by
  unfold shiftsOf at h
  have h := mapM_forall h
  have hlen := h.length_eq
  rw [List.length_range] at hlen
  refine ⟨hlen.symm, fun i hi d => ?_⟩
  have := List.forall₂_iff_get.1 h |>.2 i (by simpa using hlen ▸ hi) hi
  simp only [List.get_eq_getElem, List.getElem_range] at this
  split at this
  · rename_i hs
    rw [← Option.some.inj this]
    simp
  · cases this

/-- The array `[[1, 2], [3, 4]]` and its transpose. -/
def square : NdArray ℕ := ofRows [![1, 2], ![3, 4]]
def transposed : NdArray ℕ := { square with stride0 := 1, stride1 := 2 }
/-- The first two columns of `[[1, 2, 9], [3, 4, 9]]`. -/
def columns : NdArray ℕ := { block := [1, 2, 9, 3, 4, 9], base := 0, rows := 2, cols := 2, stride0 := 3, stride1 := 1 }
/-- The rows of `[[1, 2], [3, 4]]` in reverse order, `shifts[::-1]`. -/
def reversed : NdArray ℕ := { square with base := 2, stride0 := -2 }

example : square.Contiguous ∧ square.IsRows (dim := 2) [![1, 2], ![3, 4]] := ⟨⟨Or.inr rfl, Or.inr rfl⟩, ofRows_isRows _⟩

theorem transposed_rows : transposed.IsRows (dim := 2) [![1, 3], ![2, 4]] := ⟨rfl, rfl, by decide⟩

theorem columns_rows : columns.IsRows (dim := 2) [![1, 2], ![3, 4]] := ⟨rfl, rfl, by decide⟩

theorem reversed_rows : reversed.IsRows (dim := 2) [![3, 4], ![1, 2]] := ⟨rfl, rfl, by decide⟩

/-- **C220** (refuted) "the functions use the rows of every array with one column for each coordinate". -/
theorem C220_arrays_false : ¬ ∀ (a : NdArray ℕ) (l : List (Fin 2 → ℕ)), a.Ok → a.IsRows l → shiftsOf 2 a = some l := by
  intro h
  have h1 := h transposed [![1, 3], ![2, 4]] (by unfold NdArray.Ok; decide) transposed_rows
  exact absurd h1 (by decide)

/-- **C220** (refuted) With some columns of an array, the wrong values are used; with the rows in reverse order, memory outside of the array is read. -/
theorem C220_views_false : shiftsOf 2 columns = some [![1, 2], ![9, 3]] ∧ shiftsOf 2 reversed = none := ⟨by decide, by decide⟩

end Verif.Trace
