import Verif.Implicit.Props
import Mathlib.Data.Finset.Basic
import Mathlib.Data.List.Nodup
import Mathlib.Algebra.Order.Ring.Rat
import Mathlib.Algebra.Field.Rat

/-!
# Elements of the implicit factory (properties C174, C175)

`insertElement` and `insertionIndex` of grid/implicitgridfactory.hh. The factory does not create the elements: it looks for one with the given vertices
among those that CGAL has made.
-/

namespace Verif.Implicit

open Verif

/-! ## Model -/

/-- A finite cell of the triangulation: its handle, the handles of its vertices and `insertionIndex` (cgal/defaults.hh:26); `none` is an indeterminate
value, since the member has no initialiser. -/
structure ECell where
  handle : Nat
  verts : Finset Nat
  insertionIndex : Option Nat
deriving DecidableEq

/-- The factory with the cells of the triangulation and `countElements` (implicitgridfactory.hh:281-289). -/
structure EState (P : Type) where
  base : State P := {}
  cells : List ECell := []
  countElements : Nat := 0

/-- Calls of a user. -/
inductive ECall (P : Type) where
  | vertex (pos : P)
  | element (v : List Nat)

/-- What CGAL may do to the cells when it inserts a vertex: any new list of cells with different vertices; a cell that stays keeps its info, possibly
with other vertices (`insert_in_face` keeps one cell for a new one); the info of a new cell is not initialised. -/
structure Retri (old new : List ECell) : Prop where
  handles : (new.map ECell.handle).Nodup
  verts : (new.map ECell.verts).Nodup
  kept : ∀ c ∈ new, ∀ c' ∈ old, c.handle = c'.handle → c.insertionIndex = c'.insertionIndex
  fresh : ∀ c ∈ new, c.handle ∉ old.map ECell.handle → c.insertionIndex = none

/-- implicitgridfactory.hh:119-132 `isElement` and :97-98: the cell with the given vertices gets the number. -/
def setIndex (cells : List ECell) (vs : Finset Nat) (k : Nat) : List ECell :=
  cells.map fun c => if c.verts = vs then { c with insertionIndex := some k } else c

/-- One call: `insertVertex` (implicitgridfactory.hh:183-196) and `insertElement` (94-108; the version with a marker only calls it). -/
inductive EStep {P : Type} [DecidableEq P] : EState P → ECall P → EState P → Prop
  | vertex {s p cells} : Retri s.cells cells → EStep s (.vertex p) { s with base := insertVertex s.base p, cells := cells }
  | element {s v hs} : v.mapM (fun i => s.base.vhs[i]?) = some hs →
      EStep s (.element v) { s with cells := setIndex s.cells hs.toFinset s.countElements, countElements := s.countElements + 1 }

/-- A history of calls. -/
inductive EHistory {P : Type} [DecidableEq P] : EState P → List (ECall P) → EState P → Prop
  | nil {s} : EHistory s [] s
  | cons {s s1 s2 c l} : EStep s c s1 → EHistory s1 l s2 → EHistory s (c :: l) s2

/-! ## Specification -/

/-- `k` is the number of the last of the inserted elements `es` with the vertices `vs`. -/
def LastElement (es : List (List Nat)) (vs : Finset Nat) (k : Nat) : Prop :=
  (∃ e, es[k]? = some e ∧ e.toFinset = vs) ∧ ∀ j e, k < j → es[j]? = some e → e.toFinset ≠ vs

/-! ## Proofs -/

variable {P : Type} [DecidableEq P]

theorem ehistory_append {s s2 : EState P} {l1 l2 : List (ECall P)} (h : EHistory s (l1 ++ l2) s2) :
    ∃ s1, EHistory s l1 s1 ∧ EHistory s1 l2 s2 := by
  induction l1 generalizing s with
  | nil => exact ⟨s, .nil, h⟩
  | cons c l ih =>
    cases h with
    | cons hs h =>
      obtain ⟨s1, h1, h2⟩ := ih h
      exact ⟨s1, .cons hs h1, h2⟩

theorem trInsert_new {verts : List (Vtx P)} {p : P} (h : p ∉ verts.map (·.point)) :
    trInsert verts p = (verts.length, verts ++ [⟨p, 0, false⟩]) := by
  unfold trInsert
  have : verts.findIdx? (fun v => v.point = p) = none := by
    rw [List.findIdx?_eq_none_iff]
    intro v hv
    simp only [decide_eq_false_iff_not]
    intro hp
    exact h (List.mem_map.2 ⟨v, hv, hp⟩)
  rw [this]

/-- After the insertion of vertices at different positions the handles are the numbers and no cell has an index. -/
theorem after_vertices (ps : List P) {s s' : EState P} (h : EHistory s (ps.map .vertex) s')
    (hn : (s.base.verts.map (·.point) ++ ps).Nodup) (hv : s.base.vhs = List.range s.base.verts.length)
    (hi : ∀ c ∈ s.cells, c.insertionIndex = none) (hc : s.countElements = 0) (hnd : (s.cells.map ECell.verts).Nodup) :
    s'.base.vhs = List.range (s.base.verts.length + ps.length) ∧ (∀ c ∈ s'.cells, c.insertionIndex = none) ∧ s'.countElements = 0 ∧
      (s'.cells.map ECell.verts).Nodup := by
  induction ps generalizing s with
  | nil =>
    cases h
    exact ⟨by simpa using hv, hi, hc, hnd⟩
  | cons p ps ih =>
    cases h with
    | cons hs h =>
      cases hs with
      | @vertex _ cells hr =>
        have hp : p ∉ s.base.verts.map (·.point) := by
          intro hm
          exact (List.disjoint_of_nodup_append hn) hm (by simp)
        have e := trInsert_new hp
        have hpts : (insertVertex s.base p).verts.map (·.point) = s.base.verts.map (·.point) ++ [p] := by
          simp only [insertVertex, e]
          apply List.ext_getElem?
          intro i
          simp only [List.getElem?_map, List.getElem?_modify, List.getElem?_append, List.length_map]
          by_cases h1 : i < s.base.verts.length
          · simp [h1, Nat.ne_of_gt h1]
          · simp only [h1, if_false]
            by_cases h2 : i = s.base.verts.length
            · simp [h2]
            · rw [List.getElem?_eq_none (by simp; omega), List.getElem?_eq_none (by simp; omega)]
              rfl
        have hlen : (insertVertex s.base p).verts.length = s.base.verts.length + 1 := by
          have := congrArg List.length hpts
          simpa using this
        have := ih (s := { s with base := insertVertex s.base p, cells := cells }) h ?_ ?_ ?_ hc hr.verts
        · obtain ⟨h1, h2⟩ := this
          refine ⟨?_, h2⟩
          rw [h1, hlen, List.length_cons]
          congr 1
          omega
        · simp only [hpts]
          simpa using hn
        · show (insertVertex s.base p).vhs = _
          rw [hlen, List.range_succ]
          simp [insertVertex, e, hv]
        · intro c hcm
          by_cases hm : c.handle ∈ s.cells.map ECell.handle
          · obtain ⟨c', hc', hk⟩ := List.mem_map.1 hm
            rw [hr.kept c hcm c' hc' hk.symm]
            exact hi c' hc'
          · exact hr.fresh c hcm hm

theorem mapM_range (n : Nat) (v hs : List Nat) (h : v.mapM (fun i => (List.range n)[i]?) = some hs) : hs = v := by
  induction v generalizing hs with
  | nil => simpa using h.symm
  | cons a v ih =>
    rw [List.mapM_cons] at h
    cases ha : (List.range n)[a]? with
    | none => simp [ha] at h
    | some b =>
      cases hv : v.mapM (fun i => (List.range n)[i]?) with
      | none => simp [ha, hv] at h
      | some hs' =>
        simp only [ha, hv, Option.pure_def, Option.bind_eq_bind, Option.bind_some, Option.some.injEq] at h
        rw [← h, ih hs' hv]
        congr 1
        rw [List.getElem?_eq_some_iff] at ha
        obtain ⟨_, hb⟩ := ha
        simpa using hb.symm

theorem setIndex_verts (cells : List ECell) (vs : Finset Nat) (k : Nat) :
    (setIndex cells vs k).map ECell.verts = cells.map ECell.verts := by
  unfold setIndex
  rw [List.map_map]
  apply List.map_congr_left
  intro c _
  simp only [Function.comp]
  split <;> rfl

theorem after_elements (done es : List (List Nat)) {s s' : EState P} (h : EHistory s (es.map .element) s') {n : Nat}
    (hv : s.base.vhs = List.range n) (hc : s.countElements = done.length)
    (hi : ∀ c ∈ s.cells, ∀ k, c.insertionIndex = some k ↔ LastElement done c.verts k) :
    ∀ c ∈ s'.cells, ∀ k, c.insertionIndex = some k ↔ LastElement (done ++ es) c.verts k := by
  induction es generalizing s done with
  | nil =>
    cases h
    simpa using hi
  | cons e es ih =>
    cases h with
    | cons hs h =>
      cases hs with
      | @element _ hs he =>
        rw [hv] at he
        obtain rfl := mapM_range n _ _ he
        have := ih (done ++ [hs]) h hv (by simp [hc]) ?_
        · simpa using this
        · intro c hcm k
          obtain ⟨c0, hc0, rfl⟩ := List.mem_map.1 hcm
          by_cases hvs : c0.verts = hs.toFinset
          · simp only [hvs, if_true, Option.some.injEq, hc]
            constructor
            · rintro rfl
              refine ⟨⟨hs, by simp, rfl⟩, fun j e hj hje => ?_⟩
              rw [List.getElem?_eq_none (by simp; omega)] at hje
              cases hje
            · rintro ⟨⟨e, he1, -⟩, hlast⟩
              have hk : k < (done ++ [hs]).length := by
                by_contra hk
                rw [List.getElem?_eq_none (by omega)] at he1
                cases he1
              rw [List.length_append, List.length_singleton] at hk
              by_contra hne
              exact hlast done.length hs (by omega) (by simp) rfl
          · simp only [hvs, if_false]
            rw [hi c0 hc0 k]
            constructor
            · rintro ⟨⟨e, he1, he2⟩, hlast⟩
              have hk : k < done.length := by
                by_contra hk
                rw [List.getElem?_eq_none (by omega)] at he1
                cases he1
              refine ⟨⟨e, by rw [List.getElem?_append_left hk]; exact he1, he2⟩, fun j e' hj hje => ?_⟩
              by_cases hjl : j < done.length
              · rw [List.getElem?_append_left hjl] at hje
                exact hlast j e' hj hje
              · rw [List.getElem?_append_right (by omega)] at hje
                have : j - done.length = 0 := by
                  by_contra hne
                  rw [List.getElem?_eq_none (by simp; omega)] at hje
                  cases hje
                rw [this] at hje
                simp only [List.getElem?_cons_zero, Option.some.injEq] at hje
                rw [← hje]
                exact fun h => hvs h.symm
            · rintro ⟨⟨e, he1, he2⟩, hlast⟩
              by_cases hk : k < done.length
              · rw [List.getElem?_append_left hk] at he1
                refine ⟨⟨e, he1, he2⟩, fun j e' hj hje => ?_⟩
                have hjl : j < done.length := by
                  by_contra hne
                  rw [List.getElem?_eq_none (by omega)] at hje
                  cases hje
                exact hlast j e' hj (by rw [List.getElem?_append_left hjl]; exact hje)
              · rw [List.getElem?_append_right (by omega)] at he1
                have : k - done.length = 0 := by
                  by_contra hne
                  rw [List.getElem?_eq_none (by simp; omega)] at he1
                  cases he1
                rw [this] at he1
                simp only [List.getElem?_cons_zero, Option.some.injEq] at he1
                rw [← he1] at he2
                exact absurd he2.symm hvs

/-- **C174**: if vertices at different positions are inserted first and then elements, `insertionIndex` of an element of the grid is `k` exactly when the
`k`-th inserted element is the last one with the vertices of the element, whatever cells CGAL has made. -/
theorem C174_index (ps : List P) (es : List (List Nat)) (hp : ps.Nodup) {s : EState P}
    (h : EHistory {} (ps.map .vertex ++ es.map .element) s) :
    ∀ c ∈ s.cells, ∀ k, c.insertionIndex = some k ↔ LastElement es c.verts k := by
  obtain ⟨s1, h1, h2⟩ := ehistory_append h
  obtain ⟨a1, a2, a3, a4⟩ := after_vertices ps h1 (by simpa using hp) (by rfl) (by simp) rfl (by simp)
  have := after_elements [] es h2 (n := _) a1 (by simpa using a3) (fun c hc k => by simp [a2 c hc, LastElement])
  simpa using this

/-- **C174**: elements of the grid with the same insertion index have the same vertices, hence are the same. -/
theorem C174_injective (ps : List P) (es : List (List Nat)) (hp : ps.Nodup) {s : EState P}
    (h : EHistory {} (ps.map .vertex ++ es.map .element) s) {c c' : ECell} (hc : c ∈ s.cells) (hc' : c' ∈ s.cells) {k : Nat}
    (hk : c.insertionIndex = some k) (hk' : c'.insertionIndex = some k) : c.verts = c'.verts := by
  obtain ⟨⟨e, h1, h2⟩, -⟩ := (C174_index ps es hp h c hc k).1 hk
  obtain ⟨⟨e', h1', h2'⟩, -⟩ := (C174_index ps es hp h c' hc' k).1 hk'
  rw [h1] at h1'
  cases h1'
  rw [← h2, ← h2']

/-! ## Examples -/

/-- The cells of a square that CGAL has divided by the diagonal from 1 to 2. -/
def square : List ECell := [⟨0, {0, 1, 2}, none⟩, ⟨1, {1, 2, 3}, none⟩]

/-- The square: the vertices are inserted, then an element of the grid, then one with the other diagonal, then the first again. -/
theorem square_history (es : List (List Nat)) (hes : ∀ e ∈ es, ∀ i ∈ e, i < 4) :
    ∃ s : EState (ℚ × ℚ), EHistory {} (([(0, 0), (1, 0), (0, 1), (1, 1)] : List (ℚ × ℚ)).map .vertex ++ es.map .element) s ∧
      s.cells = (es.zipIdx).foldl (fun cells e => setIndex cells e.1.toFinset e.2) square := by
  have hm : ∀ v : List Nat, (∀ i ∈ v, i < 4) → v.mapM (fun i => (List.range 4)[i]?) = some v := by
    intro v hv
    induction v with
    | nil => rfl
    | cons a v ih =>
      rw [List.mapM_cons, ih fun i hi => hv i (List.mem_cons_of_mem _ hi),
        show (List.range 4)[a]? = some a by simp [hv a List.mem_cons_self]]
      rfl
  have key : ∀ (es : List (List Nat)), (∀ e ∈ es, ∀ i ∈ e, i < 4) → ∀ s : EState (ℚ × ℚ), s.base.vhs = List.range 4 →
      ∃ s', EHistory s (es.map .element) s' ∧ s'.cells = (es.zipIdx s.countElements).foldl (fun cells e => setIndex cells e.1.toFinset e.2) s.cells := by
    intro es
    induction es with
    | nil => exact fun _ s _ => ⟨s, .nil, rfl⟩
    | cons e es ih =>
      intro he s hs
      obtain ⟨s', h1, h2⟩ := ih (fun e' h' => he e' (List.mem_cons_of_mem _ h'))
        { s with cells := setIndex s.cells e.toFinset s.countElements, countElements := s.countElements + 1 } hs
      exact ⟨s', .cons (.element (by rw [hs]; exact hm e (he e List.mem_cons_self))) h1, h2⟩
  let s4 : EState (ℚ × ℚ) :=
    { base := insertVertex (insertVertex (insertVertex (insertVertex {} (0, 0)) (1, 0)) (0, 1)) (1, 1), cells := square, countElements := 0 }
  obtain ⟨s', h1, h2⟩ := key es hes s4 (by decide +kernel)
  refine ⟨s', ?_, h2⟩
  refine .cons (.vertex (cells := []) ⟨by simp, by simp, by simp, by simp⟩) (.cons (.vertex (cells := []) ⟨by simp, by simp, by simp, by simp⟩)
    (.cons (.vertex (cells := [⟨0, {0, 1, 2}, none⟩]) ⟨by simp, by simp, by simp, by simp⟩)
      (.cons (.vertex (cells := square) ⟨by decide, by decide, by simp [square], by simp [square]⟩) h1)))

/-- Hypotheses of C174: an element of the grid, one with the other diagonal, the first again with another order of the vertices. -/
example : ∃ s : EState (ℚ × ℚ),
    EHistory {} (([(0, 0), (1, 0), (0, 1), (1, 1)] : List (ℚ × ℚ)).map .vertex ++ [[0, 1, 2], [0, 1, 3], [2, 1, 0]].map .element) s ∧
      s.cells = [⟨0, {0, 1, 2}, some 2⟩, ⟨1, {1, 2, 3}, none⟩] := by
  obtain ⟨s, h1, h2⟩ := square_history [[0, 1, 2], [0, 1, 3], [2, 1, 0]] (by decide)
  exact ⟨s, h1, by rw [h2]; decide⟩

/-- **C175** (not guaranteed): all vertices and then two elements that cover the domain are inserted, but with the other diagonal: no element of the grid has
a number. -/
theorem C175_diagonal_false : ∃ s : EState (ℚ × ℚ),
    EHistory {} (([(0, 0), (1, 0), (0, 1), (1, 1)] : List (ℚ × ℚ)).map .vertex ++ [[0, 1, 3], [0, 3, 2]].map .element) s ∧
      s.cells ≠ [] ∧ ∀ c ∈ s.cells, c.insertionIndex = none := by
  obtain ⟨s, h1, h2⟩ := square_history [[0, 1, 3], [0, 3, 2]] (by decide)
  exact ⟨s, h1, by rw [h2]; decide, by rw [h2]; decide⟩

/-- **C175** (not guaranteed): a vertex inserted after the elements: an element of the grid has a number of an inserted element with other
vertices. -/
theorem C175_later_vertex_false : ∃ (s : EState (ℚ × ℚ)) (c : ECell),
    EHistory {} [.vertex (0, 0), .vertex (1, 0), .vertex (0, 1), .element [0, 1, 2], .vertex (1/4, 1/4)] s ∧
      c ∈ s.cells ∧ c.insertionIndex = some 0 ∧ c.verts ≠ [0, 1, 2].toFinset := by
  refine ⟨_, ⟨0, {3, 1, 2}, some 0⟩, .cons (.vertex (cells := []) ⟨by simp, by simp, by simp, by simp⟩)
    (.cons (.vertex (cells := []) ⟨by simp, by simp, by simp, by simp⟩)
      (.cons (.vertex (cells := [⟨0, {0, 1, 2}, none⟩]) ⟨by simp, by simp, by simp, by simp⟩)
        (.cons (.element (hs := [0, 1, 2]) (by decide +kernel))
          (.cons (.vertex (cells := [⟨0, {3, 1, 2}, some 0⟩, ⟨1, {0, 3, 2}, none⟩, ⟨2, {0, 1, 3}, none⟩]) ⟨by decide, by decide, ?_, ?_⟩)
            .nil)))), by simp, rfl, by decide⟩
  · simp [setIndex]
  · simp [setIndex]

end Verif.Implicit
