import Verif.Gmsh.Model
import Mathlib.Data.List.Basic
import Mathlib.Data.List.GetD
import Mathlib.Data.List.Forall2
import Mathlib.Tactic.NormNum

/-!
# C18: the gmsh reader
-/

namespace Verif.Gmsh

variable {K : Type}

/-! ## Specification: what a file of version 2 contains -/

/-- A node line: number, coordinates. -/
structure Node (K : Type) where
  number : Nat
  pos : List K

/-- An element line: number, type, tags, corner nodes (by their numbers in the file). -/
structure Elem where
  number : Nat
  type : Nat
  tags : List Nat
  nodes : List Nat

/-- The words of an element line: number, type, number of tags, tags, nodes. -/
def Elem.line (e : Elem) : List Nat := [e.number, e.type, e.tags.length] ++ e.tags ++ e.nodes

/-- The marker of an element: its last tag, 0 if it has none. -/
def Elem.marker (e : Elem) : Nat := match e.tags.getLast? with
  | some t => t
  | none => 0

/-- The dimension of the element types of the msh format: point 15, line 1, triangle 2, quadrangle 3, tetrahedron 4,
hexahedron 5; the other types are not supported. -/
def typeDim (t : Nat) : Option Nat :=
  if t = 15 then some 0 else if t = 1 then some 1 else if t = 2 ∨ t = 3 then some 2
  else if t = 4 ∨ t = 5 then some 3 else none

theorem geometryDim_eq (t : Nat) : geometryDim t = typeDim t := by
  unfold geometryDim typeDim
  split <;> simp_all

/-- What should be inserted for an element, the corners being zero-based. -/
def Elem.calls (dim : Nat) (e : Elem) : List (Call K) :=
  match typeDim e.type with
  | none => []
  | some g =>
    if g = dim then [.insertElement (e.nodes.map (· - 1)) e.marker]
    else if g + 1 = dim then [.insertInterface (e.nodes.map (· - 1)) e.marker, .insertBoundarySegment (e.nodes.map (· - 1))]
    else if g + 2 = dim then [.insertInterfaceBoundarySegment (e.nodes.map (· - 1))]
    else []

/-- Node numbers start at one and fit into 32 bit; the type is known. -/
def Elem.Valid (e : Elem) : Prop := (∃ g, typeDim e.type = some g) ∧ ∀ n ∈ e.nodes, 1 ≤ n ∧ n ≤ 2 ^ 32

theorem corner_eq {n : Nat} (h : 1 ≤ n ∧ n ≤ 2 ^ 32) : corner n = n - 1 := by
  unfold corner
  have : n + 2 ^ 64 - 1 = (n - 1) + 2 ^ 64 := by omega
  rw [this, Nat.add_mod_right]
  omega

theorem insertCalls_eq (dim : Nat) (e : Elem) (g : Nat) (hg : typeDim e.type = some g) :
    insertCalls (K := K) dim g (e.nodes.map (· - 1)) e.marker = e.calls dim := by
  unfold insertCalls Elem.calls
  rw [hg]
  by_cases h1 : g = dim
  · subst h1; simp
  · by_cases h2 : g + 1 = dim
    · subst h2; simp
    · by_cases h3 : g + 2 = dim
      · subst h3; simp
      · simp [h1, h2, h3]

/-- **C18** For an element line as described by the format, with at least one node, the reader makes exactly the
specified calls, in debug and release builds. -/
theorem C18_line (debug : Bool) (dim : Nat) (e : Elem) (he : e.Valid) (hn : e.nodes ≠ []) :
    elementLine (K := K) debug dim e.line = .ok (e.calls dim) := by
  obtain ⟨⟨g, hg⟩, hc⟩ := he
  have hlen : e.line.length = 3 + e.tags.length + e.nodes.length := by simp [Elem.line]; omega
  have hpos : 0 < e.nodes.length := List.length_pos_of_ne_nil hn
  have h1 : e.line[1]? = some e.type := rfl
  have h2 : e.line[2]? = some e.tags.length := rfl
  have h3 : e.line[2 + e.tags.length]? = some e.marker := by
    unfold Elem.line Elem.marker
    cases ht : e.tags.getLast? with
    | none =>
      rw [List.getLast?_eq_none_iff] at ht
      rw [ht]; rfl
    | some t =>
      rw [List.getLast?_eq_getElem?] at ht
      have hl : 0 < e.tags.length := by
        cases h : e.tags with
        | nil => rw [h] at ht; simp at ht
        | cons a l => simp
      rw [List.getElem?_append_left (by simp; omega), List.getElem?_append_right (by simp; omega)]
      simp only [List.length_cons, List.length_nil]
      rw [show 2 + e.tags.length - (0 + 1 + 1 + 1) = e.tags.length - 1 by omega]
      exact ht
  have h4 : e.line.drop (2 + e.tags.length + 1) = e.nodes := by
    unfold Elem.line
    rw [List.drop_append_of_le_length (by simp; omega)]
    rw [List.drop_eq_nil_of_le (by simp; omega)]
    rfl
  have h5 : e.nodes.map corner = e.nodes.map (· - 1) := List.map_congr_left fun n hn => corner_eq (hc n hn)
  unfold elementLine
  rw [if_neg (by rintro ⟨-, h⟩; omega), h1]
  simp only [geometryDim_eq, hg, h2, h3, h4, h5]
  rw [if_pos (by omega), insertCalls_eq dim e g hg]

/-- The reader stays inside the line exactly if the line has at least three numbers and its third number is not
larger than the number of the following ones (or it stops with an exception before using it). Release build. -/
theorem C104_inside_iff (dim : Nat) (l : List Nat) :
    elementLine (K := K) false dim l ≠ .undefined ↔
      (∃ a t rest, l = a :: t :: rest ∧ (typeDim t = none ∨ ∃ n rest', rest = n :: rest' ∧ n ≤ rest'.length)) := by
  unfold elementLine
  rw [if_neg (by simp)]
  match l with
  | [] => simp
  | [a] => simp
  | [a, t] =>
    simp only [List.getElem?_cons_succ, List.getElem?_cons_zero, List.getElem?_nil]
    rw [geometryDim_eq]
    cases hg : typeDim t with
    | none => simp only [ne_eq, reduceCtorEq, not_false_eq_true, true_iff]; exact ⟨a, t, [], rfl, Or.inl hg⟩
    | some g =>
      simp only [ne_eq, not_true_eq_false, false_iff]
      rintro ⟨a', t', rest, h, h' | ⟨n, r, h', -⟩⟩
      · cases h; rw [hg] at h'; cases h'
      · cases h; cases h'
  | a :: t :: n :: r =>
    simp only [List.getElem?_cons_succ, List.getElem?_cons_zero]
    rw [geometryDim_eq]
    cases hg : typeDim t with
    | none => simp only [ne_eq, reduceCtorEq, not_false_eq_true, true_iff]; exact ⟨a, t, n :: r, rfl, Or.inl hg⟩
    | some g =>
      simp only [List.length_cons]
      by_cases hn : n ≤ r.length
      · rw [if_pos (by omega)]
        have : ∃ m, (a :: t :: n :: r)[2 + n]? = some m := by
          exact ⟨_, List.getElem?_eq_getElem (by simp; omega)⟩
        obtain ⟨m, hm⟩ := this
        rw [hm]
        simp only [ne_eq, reduceCtorEq, not_false_eq_true, true_iff]
        exact ⟨a, t, n :: r, rfl, Or.inr ⟨n, r, rfl, hn⟩⟩
      · rw [if_neg (by omega)]
        simp only [ne_eq, not_true_eq_false, false_iff]
        rintro ⟨a', t', rest, h, h' | ⟨n', r', h', hle⟩⟩
        · cases h; rw [hg] at h'; cases h'
        · cases h; cases h'; exact hn hle

/-- **C104** is false for arbitrary lines: a triangle line claiming 9 tags makes the reader start beyond the end of
the line; this also happens in debug builds. A blank line is accessed as well in release builds. -/
theorem C104_outside_false :
    elementLine (K := Nat) true 2 [1, 2, 9, 0, 1, 2, 3] = .undefined ∧
    elementLine (K := Nat) false 2 [] = .undefined := by
  constructor <;> rfl

/-! ## Whole files -/

/-- `x` as a word. -/
def natWord (toReal : Nat → K) (n : Nat) : Word K := { nat := some n, real := some (toReal n) }

def Node.toLine (toReal : Nat → K) (frac : K → Option Nat) (n : Node K) : Line K :=
  .words (natWord toReal n.number :: n.pos.map fun x => { nat := frac x, real := some x })

def Elem.toLine (toReal : Nat → K) (e : Elem) : Line K := .words (e.line.map (natWord toReal))

/-- The text of a file with the given nodes and elements; `head` and `mid` are the other sections before the nodes
and before the elements, `tail` is what follows. -/
def file (toReal : Nat → K) (frac : K → Option Nat) (nodes : List (Node K)) (elems : List Elem)
    (head mid tail : List (Line K)) : List (Line K) :=
  head ++ [.marker .nodes, .words [natWord toReal nodes.length]] ++ nodes.map (Node.toLine toReal frac) ++
  [.marker .endNodes] ++ mid ++ [.marker .elements, .words [natWord toReal elems.length]] ++
  elems.map (Elem.toLine toReal) ++ [.marker .endElements] ++ tail

theorem skipTo_append (m : Marker) (head rest : List (Line K)) (h : ∀ l ∈ head, l.isMarker m = false) :
    skipTo m (head ++ .marker m :: rest) = some rest := by
  induction head with
  | nil => simp [skipTo, Line.isMarker]
  | cons l head ih =>
    rw [List.cons_append, skipTo, h l (List.mem_cons_self ..)]
    simp only [Bool.false_eq_true, if_false]
    exact ih (fun l hl => h l (List.mem_cons_of_mem _ hl))

theorem mapM_some {α β : Type*} (l : List α) (f : α → Option β) (g : α → β) (h : ∀ a ∈ l, f a = some (g a)) :
    (l.map f).mapM id = some (l.map g) := by
  induction l with
  | nil => rfl
  | cons a l ih =>
    rw [List.map_cons, List.mapM_cons, h a (List.mem_cons_self ..), ih (fun b hb => h b (List.mem_cons_of_mem _ hb))]
    rfl

theorem coordinates_node (dim : Nat) (toReal : Nat → K) (frac : K → Option Nat) (n : Node K) (h : n.pos.length = dim) :
    coordinates dim (n.toLine toReal frac) = some n.pos := by
  unfold coordinates Node.toLine
  simp only [List.drop_succ_cons, List.drop_zero]
  rw [List.take_of_length_le (by simp [h])]
  simp only [List.map_map]
  rw [if_pos (by simp [h])]
  have := mapM_some n.pos (Word.real ∘ fun x => { nat := frac x, real := some x : Word K}) id (fun _ _ => rfl)
  rw [this]; simp

theorem readNodes_spec (dim : Nat) (toReal : Nat → K) (frac : K → Option Nat) (nodes : List (Node K))
    (h : ∀ n ∈ nodes, n.pos.length = dim) (rest : List (Line K)) (calls : List (Call K)) (k : Nat)
    (line : Line K) (f : List (Line K))
    (hf : line :: f = nodes.map (Node.toLine toReal frac) ++ .marker .endNodes :: rest) :
    readNodes dim line f calls k = .ok (calls ++ nodes.map (fun n => .insertVertex n.pos), k + nodes.length, rest) := by
  induction nodes generalizing calls k line f with
  | nil =>
    simp only [List.map_nil, List.nil_append, List.cons.injEq] at hf
    obtain ⟨rfl, rfl⟩ := hf
    unfold readNodes
    simp [Line.isMarker]
  | cons n nodes ih =>
    simp only [List.map_cons, List.cons_append, List.cons.injEq] at hf
    obtain ⟨rfl, rfl⟩ := hf
    unfold readNodes
    rw [if_neg (by simp [Line.isMarker, Node.toLine])]
    rw [coordinates_node dim toReal frac n (h n (List.mem_cons_self ..))]
    simp only
    cases hx : nodes.map (Node.toLine toReal frac) ++ .marker .endNodes :: rest with
    | nil => simp at hx
    | cons l' f' =>
      simp only
      rw [ih (fun m hm => h m (List.mem_cons_of_mem _ hm)) _ _ l' f' hx.symm]
      simp [Nat.add_assoc, Nat.add_comm 1]

theorem numbers_elem (toReal : Nat → K) (e : Elem) : numbers (e.toLine toReal) = some e.line := by
  unfold numbers Elem.toLine
  simp only [List.map_map]
  rw [mapM_some e.line (Word.nat ∘ natWord toReal) id (fun _ _ => rfl)]
  simp

theorem readElements_spec (debug : Bool) (dim : Nat) (toReal : Nat → K) (elems : List Elem)
    (h : ∀ e ∈ elems, e.Valid ∧ e.nodes ≠ []) (rest : List (Line K)) (calls : List (Call K)) (k : Nat)
    (line : Line K) (f : List (Line K))
    (hf : line :: f = elems.map (Elem.toLine toReal) ++ .marker .endElements :: rest) :
    readElements debug dim line f calls k = .ok (calls ++ elems.flatMap (Elem.calls dim), k + elems.length) := by
  induction elems generalizing calls k line f with
  | nil =>
    simp only [List.map_nil, List.nil_append, List.cons.injEq] at hf
    obtain ⟨rfl, rfl⟩ := hf
    unfold readElements
    simp [Line.isMarker]
  | cons e elems ih =>
    simp only [List.map_cons, List.cons_append, List.cons.injEq] at hf
    obtain ⟨rfl, rfl⟩ := hf
    unfold readElements
    rw [if_neg (by simp [Line.isMarker, Elem.toLine]), numbers_elem]
    simp only
    obtain ⟨h1, h2⟩ := h e (List.mem_cons_self ..)
    rw [C18_line debug dim e h1 h2]
    simp only [Res.bind]
    cases hx : elems.map (Elem.toLine toReal) ++ .marker .endElements :: rest with
    | nil => simp at hx
    | cons l' f' =>
      simp only
      rw [ih (fun m hm => h m (List.mem_cons_of_mem _ hm)) _ _ l' f' hx.symm]
      simp [Nat.add_assoc, Nat.add_comm 1]

/-- The calls that should be made for a file whose nodes are numbered `1, 2, …` in order: one vertex per node, then
the elements. -/
def expected (dim : Nat) (nodes : List (Node K)) (elems : List Elem) : List (Call K) :=
  nodes.map (fun n => .insertVertex n.pos) ++ elems.flatMap (Elem.calls dim)

/-- **C18** Reading a whole well-formed file, whatever other sections it has, makes exactly the expected calls. -/
theorem C18_file (debug : Bool) (dim : Nat) (toReal : Nat → K) (frac : K → Option Nat) (nodes : List (Node K))
    (elems : List Elem) (head mid tail : List (Line K))
    (hhead : ∀ l ∈ head, l.isMarker .nodes = false) (hmid : ∀ l ∈ mid, l.isMarker .elements = false)
    (hn : ∀ n ∈ nodes, n.pos.length = dim) (he : ∀ e ∈ elems, e.Valid ∧ e.nodes ≠ []) :
    generate debug dim (file toReal frac nodes elems head mid tail) = .ok (expected dim nodes elems) := by
  unfold generate file
  simp only [List.append_assoc, List.cons_append, List.nil_append]
  rw [skipTo_append _ _ _ hhead]
  simp only [getline, count, natWord]
  cases hx : nodes.map (Node.toLine toReal frac) ++ .marker .endNodes :: (mid ++ .marker .elements ::
      .words [natWord toReal elems.length] :: (elems.map (Elem.toLine toReal) ++ .marker .endElements :: tail)) with
  | nil => simp at hx
  | cons l f =>
    have e1 := readNodes_spec dim toReal frac nodes hn _ [] 0 l f hx.symm
    simp only [natWord] at hx
    rw [hx]
    simp only [e1, Res.bind]
    rw [if_neg (by simp), skipTo_append _ _ _ hmid]
    simp only [natWord]
    cases hy : elems.map (Elem.toLine toReal) ++ .marker .endElements :: tail with
    | nil => simp at hy
    | cons l' f' =>
      simp only
      rw [readElements_spec debug dim toReal elems he tail _ 0 l' f' hy.symm]
      simp [expected]

/-- The position of the vertex with the zero-based number `v`, in order of insertion. -/
def vertexPos (calls : List (Call K)) (v : Nat) : Option (List K) :=
  (calls.filterMap fun
    | .insertVertex x => some x
    | _ => none)[v]?

theorem vertices_expected (dim : Nat) (nodes : List (Node K)) (elems : List Elem) (v : Nat) :
    vertexPos (expected dim nodes elems) v = (nodes[v]?).map Node.pos := by
  unfold vertexPos expected
  rw [List.filterMap_append]
  have h1 : (elems.flatMap (Elem.calls (K := K) dim)).filterMap (fun
    | .insertVertex x => some x
    | _ => none) = [] := by
    rw [List.filterMap_eq_nil_iff]
    intro c hc
    obtain ⟨e, -, hc⟩ := List.mem_flatMap.1 hc
    unfold Elem.calls at hc
    split at hc
    · simp at hc
    · split at hc
      · simp at hc; subst hc; rfl
      · split at hc
        · simp at hc; rcases hc with rfl | rfl <;> rfl
        · split at hc
          · simp at hc; subst hc; rfl
          · simp at hc
  rw [h1, List.append_nil, List.filterMap_map]
  have h2 : nodes.filterMap ((fun (c : Call K) => match c with
    | .insertVertex x => some x
    | _ => none) ∘ fun n => Call.insertVertex n.pos) = nodes.map Node.pos := by
    rw [← List.filterMap_eq_map]; rfl
  rw [h2, List.getElem?_map]

/-- **C18** If the nodes of the file are numbered `1, 2, …` in the order of their lines, the corner called `n` on an
element line is the vertex at the position given on the node line with number `n`. -/
theorem C18_corner (dim : Nat) (nodes : List (Node K)) (elems : List Elem)
    (hnum : nodes.map Node.number = (List.range nodes.length).map (· + 1)) (node : Node K) (hnode : node ∈ nodes) :
    vertexPos (expected dim nodes elems) (node.number - 1) = some node.pos := by
  rw [vertices_expected]
  obtain ⟨i, hi⟩ := List.mem_iff_getElem?.1 hnode
  have h1 : (nodes.map Node.number)[i]? = some node.number := by rw [List.getElem?_map, hi]; rfl
  rw [hnum, List.getElem?_map, List.getElem?_range (List.getElem?_eq_some_iff.1 hi).1] at h1
  simp only [Option.map_some, Option.some.injEq] at h1
  rw [← h1, Nat.add_sub_cancel, hi]
  rfl

/-- Without that numbering the statement is false: the number on a node line is dropped. Nodes numbered 2, 1: the
corner named 2 is put at the position of node 1. -/
theorem C104_node_number_false :
    let nodes : List (Node Nat) := [⟨2, [0, 0]⟩, ⟨1, [5, 5]⟩]
    vertexPos (expected 2 nodes []) (2 - 1) = some [5, 5] := by rfl

/-- Non-vacuity: a file with four nodes, an interface line with two tags, a triangle and a point. -/
def exElems : List Elem := [⟨1, 1, [7, 8], [1, 3]⟩, ⟨2, 2, [5], [1, 2, 3]⟩, ⟨3, 15, [], [2]⟩]

example : (∀ e ∈ exElems, e.Valid ∧ e.nodes ≠ []) := by
  intro e he
  simp only [exElems, List.mem_cons, List.not_mem_nil, or_false] at he
  rcases he with rfl | rfl | rfl
  · exact ⟨⟨⟨1, rfl⟩, by decide⟩, by decide⟩
  · exact ⟨⟨⟨2, rfl⟩, by decide⟩, by decide⟩
  · exact ⟨⟨⟨0, rfl⟩, by decide⟩, by decide⟩

example : exElems.flatMap (Elem.calls (K := Nat) 2) = [.insertInterface [0, 2] 8, .insertBoundarySegment [0, 2],
    .insertElement [0, 1, 2] 5, .insertInterfaceBoundarySegment [1]] := by rfl

/-! ## What an accepted file looks like -/

/-- The line starts with the number `n`. -/
def Announces (l : Line K) (n : Nat) : Prop := ∃ w ws, l = .words (w :: ws) ∧ w.nat = some n

/-- The line has words, and the `dim` words after the first one are the numbers `x`. -/
def GivesPoint (dim : Nat) (l : Line K) (x : List K) : Prop :=
  x.length = dim ∧ ∃ ws, l = .words ws ∧ ((ws.drop 1).take dim).map Word.real = x.map some

/-- The line consists of numbers. -/
def Numeric (l : Line K) : Prop := ∃ ws, l = .words ws ∧ ∀ w ∈ ws, ∃ n, w.nat = some n

theorem mapM_id_some {α : Type} {l : List (Option α)} {x : List α} (h : l.mapM id = some x) : l = x.map some := by
  induction l generalizing x with
  | nil => simp at h; subst h; rfl
  | cons a l ih =>
    simp only [List.mapM_cons, id, Option.bind_eq_bind, Option.pure_def, Option.bind_eq_some_iff] at h
    obtain ⟨y, rfl, ys, hys, h⟩ := h
    cases h
    rw [ih hys]; rfl

theorem coordinates_some {dim : Nat} {l : Line K} {x : List K} (h : coordinates dim l = some x) : GivesPoint dim l x := by
  cases l with
  | marker _ => simp [coordinates] at h
  | words ws =>
    simp only [coordinates] at h
    split at h
    · rename_i hl
      have := mapM_id_some h
      exact ⟨by rw [← hl, this, List.length_map], ws, rfl, this⟩
    · cases h

theorem numbers_some {l : Line K} {x : List Nat} (h : numbers l = some x) : Numeric l := by
  cases l with
  | marker _ => simp [numbers] at h
  | words ws =>
    have := mapM_id_some h
    refine ⟨ws, rfl, fun w hw => ?_⟩
    have hm : w.nat ∈ ws.map Word.nat := List.mem_map_of_mem hw
    rw [this] at hm
    obtain ⟨n, -, hn⟩ := List.mem_map.1 hm
    exact ⟨n, hn.symm⟩

theorem isMarker_true {l : Line K} {m : Marker} (h : l.isMarker m = true) : l = .marker m := by
  cases l with
  | marker m' => simp only [Line.isMarker, decide_eq_true_eq] at h; rw [h]
  | words _ => simp [Line.isMarker] at h

theorem skipTo_some {m : Marker} {ls r : List (Line K)} (h : skipTo m ls = some r) :
    ∃ head, ls = head ++ .marker m :: r := by
  induction ls with
  | nil => simp [skipTo] at h
  | cons l ls ih =>
    unfold skipTo at h
    split at h
    · rename_i hm
      exact ⟨[], by rw [isMarker_true hm]; simp_all⟩
    · obtain ⟨head, hh⟩ := ih h
      exact ⟨l :: head, by rw [hh]; rfl⟩

theorem count_some {l : Line K} {n : Nat} (h : count l = some n) : Announces l n := by
  unfold count at h
  split at h
  · exact ⟨_, _, rfl, h⟩
  · cases h
  · cases h

theorem readNodes_ok (dim : Nat) (rest : List (Line K)) : ∀ (line : Line K) (calls : List (Call K)) (n : Nat)
    (r : List (Call K) × Nat × List (Line K)), readNodes dim line rest calls n = .ok r →
    ∃ ns xs, line :: rest = ns ++ .marker .endNodes :: r.2.2 ∧ r.2.1 = n + ns.length ∧
      r.1 = calls ++ List.map Call.insertVertex xs ∧ List.Forall₂ (fun l x => coordinates dim l = some x) ns xs := by
  induction rest with
  | nil =>
    intro line calls n r h
    unfold readNodes at h
    split at h
    · rename_i hm
      cases h
      exact ⟨[], [], by rw [isMarker_true hm]; rfl, rfl, by simp, .nil⟩
    · split at h <;> simp at h
  | cons l' rest ih =>
    intro line calls n r h
    unfold readNodes at h
    split at h
    · rename_i hm
      cases h
      exact ⟨[], [], by rw [isMarker_true hm]; rfl, rfl, by simp, .nil⟩
    · split at h
      · simp at h
      · rename_i x hx
        obtain ⟨ns, xs, h1, h2, h3, h4⟩ := ih _ _ _ _ h
        refine ⟨line :: ns, x :: xs, by rw [h1]; rfl, by rw [h2, List.length_cons]; omega, by rw [h3]; simp, .cons hx h4⟩

theorem readElements_ok (debug : Bool) (dim : Nat) (rest : List (Line K)) : ∀ (line : Line K) (calls : List (Call K))
    (n : Nat) (r : List (Call K) × Nat), readElements debug dim line rest calls n = .ok r →
    ∃ es cs tail, line :: rest = es ++ .marker .endElements :: tail ∧ r.2 = n + es.length ∧ r.1 = calls ++ cs.flatten ∧
      List.Forall₂ (fun l c => ∃ d, numbers l = some d ∧ elementLine debug dim d = .ok c) es cs := by
  induction rest with
  | nil =>
    intro line calls n r h
    unfold readElements at h
    split at h
    · rename_i hm
      cases h
      exact ⟨[], [], [], by rw [isMarker_true hm]; rfl, rfl, by simp, .nil⟩
    · split at h
      · simp at h
      · rename_i d hd
        cases he : elementLine (K := K) debug dim d <;> rw [he] at h <;> simp [Res.bind] at h
  | cons l' rest ih =>
    intro line calls n r h
    unfold readElements at h
    split at h
    · rename_i hm
      cases h
      exact ⟨[], [], l' :: rest, by rw [isMarker_true hm]; rfl, rfl, by simp, .nil⟩
    · split at h
      · simp at h
      · rename_i d hd
        cases he : elementLine (K := K) debug dim d with
        | ok c =>
          rw [he] at h
          obtain ⟨es, cs, tail, h1, h2, h3, h4⟩ := ih _ _ _ _ h
          exact ⟨line :: es, c :: cs, tail, by rw [h1]; rfl, by rw [h2, List.length_cons]; omega, by rw [h3]; simp,
            .cons ⟨d, hd, he⟩ h4⟩
        | throws => rw [he] at h; simp [Res.bind] at h
        | abort => rw [he] at h; simp [Res.bind] at h
        | undefined => rw [he] at h; simp [Res.bind] at h

theorem getline_cons {f : List (Line K)} (h : f ≠ []) : f = (getline f).1 :: (getline f).2 := by
  cases f with
  | nil => exact absurd rfl h
  | cons l ls => rfl

/-- **C18** A file that is read without an exception has a section of nodes and a section of elements, each with an end, and each starts with the number of
its lines. The first calls insert one vertex for each node line, at the position given there; every word of an element line is a number. -/
theorem C18_accepted (debug : Bool) (dim : Nat) (f : List (Line K)) (calls : List (Call K))
    (h : generate debug dim f = .ok calls) :
    ∃ head cn nodes mid ce elems tail xs more,
      f = head ++ .marker .nodes :: cn :: (nodes ++ .marker .endNodes ::
        (mid ++ .marker .elements :: ce :: (elems ++ .marker .endElements :: tail))) ∧
      Announces cn nodes.length ∧ Announces ce elems.length ∧
      calls = List.map Call.insertVertex xs ++ more ∧ List.Forall₂ (GivesPoint dim) nodes xs ∧ ∀ l ∈ elems, Numeric l := by
  unfold generate at h
  split at h
  · simp at h
  rename_i f1 hf1
  obtain ⟨head, hhead⟩ := skipTo_some hf1
  dsimp only at h
  split at h
  · simp at h
  rename_i nv hnv
  have h1 : f1 ≠ [] := by rintro rfl; simp [getline, count] at hnv
  cases hr : readNodes dim (getline (getline f1).2).1 (getline (getline f1).2).2 [] 0 with
  | throws => rw [hr] at h; simp [Res.bind] at h
  | abort => rw [hr] at h; simp [Res.bind] at h
  | undefined => rw [hr] at h; simp [Res.bind] at h
  | ok r =>
  rw [hr] at h
  simp only [Res.bind] at h
  split at h
  · simp at h
  rename_i hcount
  have hcount : r.2.1 = nv := by simpa using hcount
  have h2 : (getline f1).2 ≠ [] := by
    intro he
    rw [he] at hr
    obtain ⟨ns, xs, e1, -⟩ := readNodes_ok dim _ _ _ _ _ hr
    have hm : Line.marker Marker.endNodes ∈ [Line.words (K := K) []] := by
      change _ ∈ (getline []).1 :: (getline []).2
      rw [e1]; simp
    simp at hm
  obtain ⟨ns, xs, e1, e2, e3, e4⟩ := readNodes_ok dim _ _ _ _ _ hr
  rw [← getline_cons h2] at e1
  split at h
  · simp at h
  rename_i f4 hf4
  obtain ⟨mid, hmid⟩ := skipTo_some hf4
  split at h
  · simp at h
  rename_i ne hne
  have h4 : f4 ≠ [] := by rintro rfl; simp [getline, count] at hne
  cases hq : readElements debug dim (getline (getline f4).2).1 (getline (getline f4).2).2 r.1 0 with
  | throws => rw [hq] at h; simp at h
  | abort => rw [hq] at h; simp at h
  | undefined => rw [hq] at h; simp at h
  | ok q =>
  rw [hq] at h
  simp only at h
  split at h
  · simp at h
  rename_i hcount2
  have hcount2 : q.2 = ne := by simpa using hcount2
  have h5 : (getline f4).2 ≠ [] := by
    intro he
    rw [he] at hq
    obtain ⟨es, cs, tail, g1, -⟩ := readElements_ok debug dim _ _ _ _ _ hq
    have hm : Line.marker Marker.endElements ∈ [Line.words (K := K) []] := by
      change _ ∈ (getline []).1 :: (getline []).2
      rw [g1]; simp
    simp at hm
  obtain ⟨es, cs, tail, g1, g2, g3, g4⟩ := readElements_ok debug dim _ _ _ _ _ hq
  rw [← getline_cons h5] at g1
  have hcalls : q.1 = calls := by simpa using h
  refine ⟨head, (getline f1).1, ns, mid, (getline f4).1, es, tail, xs, cs.flatten, ?_, ?_, ?_, ?_, ?_, ?_⟩
  · rw [hhead]
    congr 2
    rw [← g1, ← getline_cons h4, ← hmid, ← e1]
    exact getline_cons h1
  · rw [show ns.length = nv by omega]; exact count_some hnv
  · rw [show es.length = ne by omega]; exact count_some hne
  · rw [← hcalls, g3, e3]; simp
  · exact e4.imp fun _ _ hx => coordinates_some hx
  · intro l hl
    obtain ⟨i, hi⟩ := List.mem_iff_get.1 hl
    have hg := (List.forall₂_iff_get.1 g4)
    obtain ⟨d, hd, -⟩ := hg.2 i.1 i.2 (by rw [← hg.1]; exact i.2)
    exact numbers_some (by rw [← hi]; exact hd)

/-- One node, one element line (a point), two dimensions. -/
example : ∃ calls, generate (K := Nat) false 2
    [.marker .nodes, .words [⟨some 1, none⟩], .words [⟨some 1, none⟩, ⟨none, some 3⟩, ⟨none, some 4⟩], .marker .endNodes,
      .marker .elements, .words [⟨some 1, none⟩],
      .words [⟨some 1, none⟩, ⟨some 15, none⟩, ⟨some 1, none⟩, ⟨some 7, none⟩, ⟨some 1, none⟩], .marker .endElements] = .ok calls ∧
    calls.length = 2 := by
  refine ⟨[.insertVertex [3, 4], .insertInterfaceBoundarySegment [0]], ?_, rfl⟩
  simp [generate, skipTo, Line.isMarker, getline, count, readNodes, coordinates, Res.bind, readElements, numbers, elementLine,
    geometryDim, insertCalls, corner]

end Verif.Gmsh
