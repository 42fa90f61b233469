import Verif.HoleRemesh.Model
import Mathlib.Algebra.Order.Ring.Rat
import Mathlib.Algebra.Field.Rat
import Mathlib.Tactic.Linarith
import Mathlib.Tactic.Ring
import Mathlib.Data.Fin.VecNotation

/-!
# C84: removing an interface vertex splits its star along the new segment
-/

namespace Verif.HoleRemesh

set_option linter.unusedSectionVars false

variable {K : Type} [Field K] [LinearOrder K] [IsStrictOrderedRing K] {V : Type} [DecidableEq V]

/-! ## Specification -/

/-- The edges of the path from `c` over the vertices `l` to `d`. -/
def pathEdges (c : V) (l : List V) (d : V) : List (V × V) := (c :: l).zip (l ++ [d])

/-! ## Proofs -/

/-- Facets that go to the first hole. -/
def isFirst (dist : V → K) (c0 c1 : V) (f : V × V) : Prop := if f.2 = c0 ∨ f.2 = c1 then dist f.1 > 0 else dist f.2 > 0

instance (dist : V → K) (c0 c1 : V) (f : V × V) : Decidable (isFirst dist c0 c1 f) := by unfold isFirst; infer_instance

/-- What a facet adds to its list. -/
def entries (c0 c1 : V) (f : V × V) : List (Entry V) := if f.2 = c0 ∨ f.2 = c1 then [.facet f.1 f.2, .helper] else [.facet f.1 f.2]

theorem place_hole1 (dist : V → K) (c0 c1 : V) (s : State V) (f : V × V) :
    (place dist c0 c1 s f).hole1 = s.hole1 ++ (if isFirst dist c0 c1 f then entries c0 c1 f else []) := by
  unfold place isFirst entries
  split_ifs <;> simp

theorem place_hole2 (dist : V → K) (c0 c1 : V) (s : State V) (f : V × V) :
    (place dist c0 c1 s f).hole2 = s.hole2 ++ (if isFirst dist c0 c1 f then [] else entries c0 c1 f) := by
  unfold place isFirst entries
  split_ifs <;> simp

theorem fold_hole1 (dist : V → K) (c0 c1 : V) (hole : List (V × V)) : ∀ s : State V, (hole.foldl (place dist c0 c1) s).hole1 =
    s.hole1 ++ hole.flatMap fun f => if isFirst dist c0 c1 f then entries c0 c1 f else [] := by
  induction hole with
  | nil => intro s; simp
  | cons f hole ih => intro s; rw [List.foldl_cons, ih, place_hole1, List.flatMap_cons, List.append_assoc]

theorem fold_hole2 (dist : V → K) (c0 c1 : V) (hole : List (V × V)) : ∀ s : State V, (hole.foldl (place dist c0 c1) s).hole2 =
    s.hole2 ++ hole.flatMap fun f => if isFirst dist c0 c1 f then [] else entries c0 c1 f := by
  induction hole with
  | nil => intro s; simp
  | cons f hole ih => intro s; rw [List.foldl_cons, ih, place_hole2, List.flatMap_cons, List.append_assoc]

theorem fold_left (dist : V → K) (c0 c1 d : V) (hole : List (V × V))
    (h : ∀ f ∈ hole, isFirst dist c0 c1 f → (f.2 = c0 ∨ f.2 = c1) → f.2 = d) : ∀ s : State V,
    ((∃ f ∈ hole, isFirst dist c0 c1 f ∧ (f.2 = c0 ∨ f.2 = c1)) ∨ s.left = some d) → (hole.foldl (place dist c0 c1) s).left = some d := by
  induction hole with
  | nil => intro s hs; simpa using hs
  | cons f hole ih =>
    intro s hs
    rw [List.foldl_cons]
    refine ih (fun g hg => h g (by simp [hg])) _ ?_
    by_cases hf : isFirst dist c0 c1 f ∧ (f.2 = c0 ∨ f.2 = c1)
    · right
      have hd := h f (by simp) hf.1 hf.2
      have hp : dist f.1 > 0 := by have := hf.1; unfold isFirst at this; rwa [if_pos hf.2] at this
      unfold place
      rw [if_pos hf.2, if_pos hp]
      exact congrArg some hd
    · rcases hs with ⟨g, hg, h1, h2⟩ | hs
      · rcases List.mem_cons.1 hg with rfl | hg
        · exact absurd ⟨h1, h2⟩ hf
        · exact Or.inl ⟨g, hg, h1, h2⟩
      · right
        rw [← hs]
        unfold place
        by_cases h2 : f.2 = c0 ∨ f.2 = c1
        · have : ¬ dist f.1 > 0 := fun h1 => hf ⟨by unfold isFirst; rwa [if_pos h2], h2⟩
          rw [if_pos h2, if_neg this]
        · rw [if_neg h2]
          split <;> rfl

theorem fold_right (dist : V → K) (c0 c1 d : V) (hole : List (V × V))
    (h : ∀ f ∈ hole, ¬ isFirst dist c0 c1 f → (f.2 = c0 ∨ f.2 = c1) → f.2 = d) : ∀ s : State V,
    ((∃ f ∈ hole, ¬ isFirst dist c0 c1 f ∧ (f.2 = c0 ∨ f.2 = c1)) ∨ s.right = some d) → (hole.foldl (place dist c0 c1) s).right = some d := by
  induction hole with
  | nil => intro s hs; simpa using hs
  | cons f hole ih =>
    intro s hs
    rw [List.foldl_cons]
    refine ih (fun g hg => h g (by simp [hg])) _ ?_
    by_cases hf : ¬ isFirst dist c0 c1 f ∧ (f.2 = c0 ∨ f.2 = c1)
    · right
      have hd := h f (by simp) hf.1 hf.2
      have hp : ¬ dist f.1 > 0 := by have := hf.1; unfold isFirst at this; rwa [if_pos hf.2] at this
      unfold place
      rw [if_pos hf.2, if_neg hp]
      exact congrArg some hd
    · rcases hs with ⟨g, hg, h1, h2⟩ | hs
      · rcases List.mem_cons.1 hg with rfl | hg
        · exact absurd ⟨h1, h2⟩ hf
        · exact Or.inl ⟨g, hg, h1, h2⟩
      · right
        rw [← hs]
        unfold place
        by_cases h2 : f.2 = c0 ∨ f.2 = c1
        · have : dist f.1 > 0 := by
            by_contra h1
            exact hf ⟨by unfold isFirst; rwa [if_pos h2], h2⟩
          rw [if_pos h2, if_pos this]
        · rw [if_neg h2]
          split <;> rfl

theorem rotated_flatMap {α β : Type} (f : α → List β) {l l' : List α} (h : l ~r l') : l.flatMap f ~r l'.flatMap f := by
  obtain ⟨n, rfl⟩ := h
  rw [List.rotate_eq_drop_append_take_mod, List.flatMap_append]
  refine ⟨((l.take (n % l.length)).flatMap f).length, ?_⟩
  have e : l.flatMap f = (l.take (n % l.length)).flatMap f ++ (l.drop (n % l.length)).flatMap f := by
    rw [← List.flatMap_append, List.take_append_drop]
  rw [e, List.rotate_append_length_eq]

theorem rotated_mem {α : Type} {l l' : List α} (h : l ~r l') (x : α) : x ∈ l ↔ x ∈ l' := by
  obtain ⟨n, rfl⟩ := h
  exact List.mem_rotate.symm

theorem path_facts (dist : V → K) (c0 c1 c d : V) (l : List V) (hl : l ≠ []) (P : Prop) [Decidable P] (hc : d = c0 ∨ d = c1)
    (hin : ∀ x ∈ l, x ≠ c0 ∧ x ≠ c1 ∧ (dist x > 0 ↔ P)) :
    (∀ f ∈ pathEdges c l d, (isFirst dist c0 c1 f ↔ P) ∧ ((f.2 = c0 ∨ f.2 = c1) → f.2 = d)) ∧
    (∃ f ∈ pathEdges c l d, f.2 = c0 ∨ f.2 = c1) ∧
    (pathEdges c l d).flatMap (entries c0 c1) = (pathEdges c l d).map (fun f => Entry.facet f.1 f.2) ++ [.helper] := by
  induction l generalizing c with
  | nil => exact absurd rfl hl
  | cons a l ih =>
    obtain ⟨ha0, ha1, hap⟩ := hin a (by simp)
    have hna : ¬ (a = c0 ∨ a = c1) := by rintro (h | h); exacts [ha0 h, ha1 h]
    have e : pathEdges c (a :: l) d = (c, a) :: pathEdges a l d := rfl
    have hfa : isFirst dist c0 c1 (c, a) ↔ P := by unfold isFirst; rw [if_neg hna]; exact hap
    have hea : entries c0 c1 (c, a) = [.facet c a] := by unfold entries; rw [if_neg hna]
    cases l with
    | nil =>
      have e2 : pathEdges a ([] : List V) d = [(a, d)] := rfl
      have hfd : isFirst dist c0 c1 (a, d) ↔ P := by unfold isFirst; rw [if_pos hc]; exact hap
      have hed : entries c0 c1 (a, d) = [.facet a d, .helper] := by unfold entries; rw [if_pos hc]
      rw [e, e2]
      refine ⟨?_, ⟨(a, d), by simp, hc⟩, ?_⟩
      · intro f hf
        simp only [List.mem_cons, List.not_mem_nil, or_false] at hf
        rcases hf with rfl | rfl
        · exact ⟨hfa, fun h => absurd h hna⟩
        · exact ⟨hfd, fun _ => rfl⟩
      · simp [hea, hed]
    | cons b l =>
      obtain ⟨h1, h2, h3⟩ := ih a (by simp) fun x hx => hin x (by simp [List.mem_cons.1 hx])
      rw [e]
      refine ⟨?_, ?_, ?_⟩
      · intro f hf
        rcases List.mem_cons.1 hf with rfl | hf
        · exact ⟨hfa, fun h => absurd h hna⟩
        · exact h1 f hf
      · obtain ⟨f, hf, hf2⟩ := h2
        exact ⟨f, by simp [hf], hf2⟩
      · rw [List.flatMap_cons, hea, h3]; rfl

/-! ## C84 -/

/-- C84: let the boundary of the star of the removed vertex, starting anywhere, consist of a path from `c0` to `c1` whose inner
vertices have positive signed distance and a path back whose inner vertices do not, with at least one inner vertex each. Then the two polygons that are
filled are exactly the two paths, each closed by the new segment, in opposite directions. -/
theorem C84_split (dist : V → K) (c0 c1 : V) (A B : List V) (hA : A ≠ []) (hB : B ≠ []) (hAB : ∀ x ∈ A ++ B, x ≠ c0 ∧ x ≠ c1)
    (hAp : ∀ x ∈ A, 0 < dist x) (hBp : ∀ x ∈ B, dist x ≤ 0) (hole : List (V × V)) (hhole : hole ~r pathEdges c0 A c1 ++ pathEdges c1 B c0) :
    ∃ P Q, polygons (classify dist c0 c1 hole) = some (P, Q) ∧ P ~r pathEdges c0 A c1 ++ [(c1, c0)] ∧ Q ~r pathEdges c1 B c0 ++ [(c0, c1)] := by
  obtain ⟨a1, ⟨fa, ha2, ha2'⟩, a3⟩ := path_facts dist c0 c1 c0 c1 A hA True (Or.inr rfl) fun x hx =>
    ⟨(hAB x (by simp [hx])).1, (hAB x (by simp [hx])).2, iff_of_true (hAp x hx) trivial⟩
  obtain ⟨b1, ⟨fb, hb2, hb2'⟩, b3⟩ := path_facts dist c0 c1 c1 c0 B hB False (Or.inl rfl) fun x hx =>
    ⟨(hAB x (by simp [hx])).1, (hAB x (by simp [hx])).2, iff_of_false (not_lt.2 (hBp x hx)) id⟩
  have hmem : ∀ f, f ∈ hole ↔ f ∈ pathEdges c0 A c1 ∨ f ∈ pathEdges c1 B c0 := fun f => by rw [rotated_mem hhole, List.mem_append]
  have hl : (classify dist c0 c1 hole).left = some c1 := by
    refine fold_left dist c0 c1 c1 hole ?_ {} (Or.inl ⟨fa, (hmem fa).2 (Or.inl ha2), ((a1 fa ha2).1).2 trivial, ha2'⟩)
    intro f hf hfirst hend
    rcases (hmem f).1 hf with h | h
    · exact (a1 f h).2 hend
    · exact absurd hfirst fun hh => ((b1 f h).1).1 hh
  have hr : (classify dist c0 c1 hole).right = some c0 := by
    refine fold_right dist c0 c1 c0 hole ?_ {} (Or.inl ⟨fb, (hmem fb).2 (Or.inr hb2), fun hh => ((b1 fb hb2).1).1 hh, hb2'⟩)
    intro f hf hfirst hend
    rcases (hmem f).1 hf with h | h
    · exact absurd (((a1 f h).1).2 trivial) hfirst
    · exact (b1 f h).2 hend
  refine ⟨(classify dist c0 c1 hole).hole1.map (Entry.vertices c0 c1), (classify dist c0 c1 hole).hole2.map (Entry.vertices c1 c0), ?_, ?_, ?_⟩
  · unfold polygons; rw [hl, hr]
  · unfold classify
    rw [fold_hole1, List.nil_append]
    have h1 := rotated_flatMap (fun f => if isFirst dist c0 c1 f then entries c0 c1 f else []) hhole
    rw [List.flatMap_append] at h1
    have e1 : (pathEdges c0 A c1).flatMap (fun f => if isFirst dist c0 c1 f then entries c0 c1 f else []) = (pathEdges c0 A c1).flatMap (entries c0 c1) :=
      List.flatMap_congr fun f hf => by rw [if_pos (((a1 f hf).1).2 trivial)]
    have e2 : (pathEdges c1 B c0).flatMap (fun f => if isFirst dist c0 c1 f then entries c0 c1 f else []) = [] := by
      rw [List.flatMap_eq_nil_iff]
      intro f hf
      rw [if_neg fun hh => ((b1 f hf).1).1 hh]
    rw [e1, e2, a3, List.append_nil] at h1
    have h2 := h1.map (Entry.vertices c0 c1)
    refine h2.trans ?_
    rw [List.map_append, List.map_map]
    have : (Entry.vertices c0 c1 ∘ fun f : V × V => Entry.facet f.1 f.2) = id := rfl
    rw [this, List.map_id]
    exact List.IsRotated.refl _
  · unfold classify
    rw [fold_hole2, List.nil_append]
    have h1 := rotated_flatMap (fun f => if isFirst dist c0 c1 f then [] else entries c0 c1 f) hhole
    rw [List.flatMap_append] at h1
    have e1 : (pathEdges c1 B c0).flatMap (fun f => if isFirst dist c0 c1 f then [] else entries c0 c1 f) = (pathEdges c1 B c0).flatMap (entries c0 c1) :=
      List.flatMap_congr fun f hf => by rw [if_neg fun hh => ((b1 f hf).1).1 hh]
    have e2 : (pathEdges c0 A c1).flatMap (fun f => if isFirst dist c0 c1 f then [] else entries c0 c1 f) = [] := by
      rw [List.flatMap_eq_nil_iff]
      intro f hf
      rw [if_pos (((a1 f hf).1).2 trivial)]
    rw [e1, e2, b3, List.nil_append] at h1
    have h2 := h1.map (Entry.vertices c1 c0)
    refine h2.trans ?_
    rw [List.map_append, List.map_map]
    have : (Entry.vertices c1 c0 ∘ fun f : V × V => Entry.facet f.1 f.2) = id := rfl
    rw [this, List.map_id]
    exact List.IsRotated.refl _

/-- Orientation of three points (spec): positive if `x` lies to the left of the directed line from `a` to `b`. -/
def orient (a b x : K × K) : K := (b.1 - a.1) * (x.2 - a.2) - (b.2 - a.2) * (x.1 - a.1)

/-- C84 for the mesh: the hole is a counter-clockwise polygon of vertices with positions `pos`. If every vertex on the way from `c0` to `c1` lies
strictly right of the line from `c0` to `c1` and every vertex on the way back on it or left of it, the new segment cuts the hole into
the part right of it and the part left of it. -/
theorem C84_sides (pos : V → K × K) (c0 c1 : V) (A B : List V) (hA : A ≠ []) (hB : B ≠ []) (hAB : ∀ x ∈ A ++ B, x ≠ c0 ∧ x ≠ c1)
    (hAp : ∀ x ∈ A, orient (pos c0) (pos c1) (pos x) < 0) (hBp : ∀ x ∈ B, 0 ≤ orient (pos c0) (pos c1) (pos x))
    (hole : List (V × V)) (hhole : hole ~r pathEdges c0 A c1 ++ pathEdges c1 B c0) :
    ∃ P Q, polygons (classify (fun x => signedDistance (pos c0) (pos c1) (pos x)) c0 c1 hole) = some (P, Q) ∧
      P ~r pathEdges c0 A c1 ++ [(c1, c0)] ∧ Q ~r pathEdges c1 B c0 ++ [(c0, c1)] := by
  have e : ∀ x, signedDistance (pos c0) (pos c1) (pos x) = -orient (pos c0) (pos c1) (pos x) := fun x => by
    unfold signedDistance orient; ring
  refine C84_split _ c0 c1 A B hA hB hAB (fun x hx => ?_) (fun x hx => ?_) hole hhole
  · rw [e]; have := hAp x hx; linarith
  · rw [e]; have := hBp x hx; linarith

/-- Positions of the five neighbours of a vertex at the origin. -/
def exPos : Fin 5 → ℚ × ℚ := ![(-1, 0), (-1, -1), (1, -1), (1, 0), (0, 1)]

/-- The hypotheses of `C84_sides` hold for the star with the neighbours 0,…,4 and the constraint 0–3, starting at vertex 2. -/
example : ∃ P Q, polygons (classify (fun x => signedDistance (exPos 0) (exPos 3) (exPos x)) 0 3 [(2, 3), (3, 4), (4, 0), (0, 1), (1, 2)]) = some (P, Q) ∧
    P ~r [(0, 1), (1, 2), (2, 3), (3, 0)] ∧ Q ~r [(3, 4), (4, 0), (0, 3)] :=
  C84_sides exPos 0 3 [1, 2] [4] (by decide) (by decide) (by decide) (by decide +kernel) (by decide +kernel) _ ⟨3, by decide⟩

/-- Positions of the neighbours of an interface vertex at the origin, where the interface comes from vertex 2 and bends to vertex 0, and
vertex 1 lies between the interface and its chord. -/
def bendPos : Fin 4 → ℚ × ℚ := ![(2, 1), (0, 1/2), (-2, 1), (0, -2)]

/-- The star of the origin is a counter-clockwise fan, so it is a valid neighbourhood in a mesh. -/
theorem bend_star : ∀ i : Fin 4, 0 < orient (0, 0) (bendPos i) (bendPos (i + 1)) := by decide +kernel

/-- C137 fails if the interface is bent so much that a neighbour of the removed vertex lies between the interface and its chord: all facets
are put into one hole, and one of the end points of the new segment stays unassigned (a null handle). -/
theorem C137_bent_false : polygons (classify (fun x => signedDistance (bendPos 0) (bendPos 2) (bendPos x)) 0 2 [(0, 1), (1, 2), (2, 3), (3, 0)]) = none := by
  decide +kernel

/-- C137 fails if the two neighbours on the interface are already joined by an edge of the star (they form a triangle with the removed
vertex). -/
theorem C137_adjacent_false (dist : V → K) (c0 c1 : V) (B : List V) (hB : B ≠ []) (h0 : dist c0 = 0) (hne : ∀ x ∈ B, x ≠ c0 ∧ x ≠ c1) (hBp : ∀ x ∈ B, dist x ≤ 0)
    (hole : List (V × V)) (hhole : hole ~r pathEdges c0 [] c1 ++ pathEdges c1 B c0) : polygons (classify dist c0 c1 hole) = none := by
  obtain ⟨b1, -, -⟩ := path_facts dist c0 c1 c1 c0 B hB False (Or.inl rfl) fun x hx =>
    ⟨(hne x hx).1, (hne x hx).2, iff_of_false (not_lt.2 (hBp x hx)) id⟩
  have hn : ∀ f ∈ hole, ¬ isFirst dist c0 c1 f := by
    intro f hf
    rw [rotated_mem hhole, List.mem_append] at hf
    rcases hf with hf | hf
    · have : f = (c0, c1) := by simpa [pathEdges] using hf
      subst this
      unfold isFirst
      rw [if_pos (Or.inr rfl), h0]
      exact lt_irrefl 0
    · exact fun hh => ((b1 f hf).1).1 hh
  have : (classify dist c0 c1 hole).left = none := by
    have key : ∀ (l : List (V × V)) (s : State V), (∀ f ∈ l, ¬ isFirst dist c0 c1 f) → s.left = none → (l.foldl (place dist c0 c1) s).left = none := by
      intro l
      induction l with
      | nil => intro s _ h; exact h
      | cons f l ih =>
        intro s h hs
        rw [List.foldl_cons]
        refine ih _ (fun g hg => h g (by simp [hg])) ?_
        have hf := h f (by simp)
        unfold isFirst at hf
        unfold place
        split_ifs at hf ⊢ <;> simp_all
    exact key hole {} hn rfl
  unfold polygons
  rw [this]

example : polygons (classify (fun x => signedDistance (exPos 3) (exPos 0) (exPos x)) 3 0 [(3, 0), (0, 1), (1, 2), (2, 3)]) = none :=
  C137_adjacent_false _ 3 0 [1, 2] (by decide) (by decide +kernel) (by decide) (by decide +kernel) _ (List.IsRotated.refl _)

/-! ## Gluing -/

/-- The sides of the new faces in the order of the loops. -/
def sides (elements : List Nat) : List (Nat × Fin 3) := elements.flatMap fun f => [(f, (0 : Fin 3)), (f, 1), (f, 2)]

theorem not_mem_left {α : Type} {l1 l2 : List α} {x : α} (h : (l1 ++ x :: l2).Nodup) : x ∉ l1 := fun hx =>
  List.disjoint_of_nodup_append h hx (by simp)

theorem glue_done (l : List (Nat × Fin 3)) (g : Glue) (h : g.done = true) : l.foldl glueStep g = g := by
  induction l with
  | nil => rfl
  | cons a l ih => rw [List.foldl_cons]; have : glueStep g a = g := by unfold glueStep; rw [if_pos h]
                   rw [this, ih]

theorem glue_skip (l : List (Nat × Fin 3)) (g : Glue) (h : ∀ s ∈ l, g.nbr s.1 s.2 ≠ .helper) : l.foldl glueStep g = g := by
  induction l with
  | nil => rfl
  | cons a l ih =>
    have : glueStep g a = g := by
      unfold glueStep
      by_cases hd : g.done = true
      · rw [if_pos hd]
      · rw [if_neg hd, if_neg (h a (by simp))]
    rw [List.foldl_cons, this, ih fun s hs => h s (by simp [hs])]

/-- C84: if the two filled holes each left one side of a new face at the helper face, exactly these two sides become mutual neighbours, no
side is left at the helper face, and nothing else changes. -/
theorem C84_glue (elements : List Nat) (nbr : Nbrs) (s t : Nat × Fin 3) (hs : s ∈ sides elements) (ht : t ∈ sides elements) (hst : s ≠ t)
    (hnd : elements.Nodup) (hiff : ∀ u ∈ sides elements, nbr u.1 u.2 = .helper ↔ u = s ∨ u = t) :
    ∃ nbr', glue elements nbr = some nbr' ∧ nbr' s.1 s.2 = .face t.1 ∧ nbr' t.1 t.2 = .face s.1 ∧
      (∀ u : Nat × Fin 3, u ≠ s → u ≠ t → nbr' u.1 u.2 = nbr u.1 u.2) ∧ ∀ u ∈ sides elements, nbr' u.1 u.2 ≠ .helper := by
  have hnds : (sides elements).Nodup := by
    unfold sides
    rw [List.nodup_flatMap]
    refine ⟨fun f _ => by simp, hnd.imp fun {a b} hab => ?_⟩
    intro x hx hy
    simp only [List.mem_cons, List.not_mem_nil, or_false] at hx hy
    have hxa : x.1 = a := by rcases hx with h | h | h <;> rw [h]
    have hxb : x.1 = b := by rcases hy with h | h | h <;> rw [h]
    exact hab (hxa.symm.trans hxb)
  -- the order in which the two sides are met does not matter
  suffices H : ∀ s t : Nat × Fin 3, s ≠ t → (∀ u ∈ sides elements, nbr u.1 u.2 = .helper ↔ u = s ∨ u = t) →
      (∃ l1 l2 l3, sides elements = l1 ++ s :: l2 ++ t :: l3) → ∃ nbr', glue elements nbr = some nbr' ∧ nbr' s.1 s.2 = .face t.1 ∧ nbr' t.1 t.2 = .face s.1 ∧
        (∀ u : Nat × Fin 3, u ≠ s → u ≠ t → nbr' u.1 u.2 = nbr u.1 u.2) by
    have H2 : ∃ nbr', glue elements nbr = some nbr' ∧ nbr' s.1 s.2 = .face t.1 ∧ nbr' t.1 t.2 = .face s.1 ∧
        (∀ u : Nat × Fin 3, u ≠ s → u ≠ t → nbr' u.1 u.2 = nbr u.1 u.2) := by
      obtain ⟨l1, l2, e⟩ := List.append_of_mem hs
      rw [e] at ht
      rcases List.mem_append.1 ht with h | h
      · obtain ⟨m1, m2, e2⟩ := List.append_of_mem h
        obtain ⟨n, h1, h2, h3, h4⟩ := H t s hst.symm (fun u hu => (hiff u hu).trans or_comm) ⟨m1, m2, l2, by rw [e, e2]⟩
        exact ⟨n, h1, h3, h2, fun u hu hu' => h4 u hu' hu⟩
      · rcases List.mem_cons.1 h with h | h
        · exact absurd h.symm hst
        · obtain ⟨m1, m2, e2⟩ := List.append_of_mem h
          exact H s t hst hiff ⟨l1, m1, m2, by rw [e, e2]; simp⟩
    obtain ⟨n, h1, h2, h3, h4⟩ := H2
    refine ⟨n, h1, h2, h3, h4, fun u hu => ?_⟩
    by_cases hus : u = s
    · rw [hus, h2]; exact fun h => Nbr.noConfusion h
    · by_cases hut : u = t
      · rw [hut, h3]; exact fun h => Nbr.noConfusion h
      · rw [h4 u hus hut]
        exact fun h => by rcases (hiff u hu).1 h with h | h; exacts [hus h, hut h]
  intro s t hst hiff ⟨l1, l2, l3, e⟩
  rw [e] at hnds hiff
  have hs1 : ∀ u ∈ l1, nbr u.1 u.2 ≠ .helper := by
    intro u hu h
    rcases (hiff u (by simp [hu])).1 h with rfl | rfl
    · rw [List.append_assoc] at hnds
      exact not_mem_left hnds hu
    · exact not_mem_left hnds (by simp [hu])
  have hs2 : ∀ u ∈ l2, nbr u.1 u.2 ≠ .helper := by
    intro u hu h
    rcases (hiff u (by simp [hu])).1 h with rfl | rfl
    · simp [List.nodup_append, hu] at hnds
    · exact not_mem_left hnds (by simp [hu])
  have hsh : nbr s.1 s.2 = .helper := (hiff s (by simp)).2 (Or.inl rfl)
  have hth : nbr t.1 t.2 = .helper := (hiff t (by simp)).2 (Or.inr rfl)
  have step1 : glueStep { nbr := nbr } s = { nbr := nbr, first := some s } := by
    unfold glueStep
    rw [if_neg (by simp), if_pos hsh]
  have run : (sides elements).foldl glueStep { nbr := nbr } = glueStep { nbr := nbr, first := some s } t := by
    rw [e, List.foldl_append, List.foldl_append, List.foldl_cons, List.foldl_cons, glue_skip l1 _ hs1, step1, glue_skip l2 _ hs2]
    refine glue_done _ _ ?_
    unfold glueStep
    rw [if_neg (by simp), if_pos hth]
  have step2 : glueStep { nbr := nbr, first := some s } t = 
      { nbr := (fun f i => if f = s.1 ∧ i = s.2 then Nbr.face t.1 else if f = t.1 ∧ i = t.2 then Nbr.face s.1 else nbr f i)
        first := some s
        done := true } := by
    unfold glueStep
    rw [if_neg (by simp), if_pos hth]
  rw [step2] at run
  refine ⟨_, by unfold glue; rw [show elements.flatMap (fun f => [(f, (0 : Fin 3)), (f, 1), (f, 2)]) = sides elements from rfl, run]; rfl, ?_, ?_, ?_⟩
  · simp
  · have : ¬ (t.1 = s.1 ∧ t.2 = s.2) := fun h => hst (Prod.ext h.1 h.2).symm
    simp [this]
  · intro u hu hu'
    have h1 : ¬ (u.1 = s.1 ∧ u.2 = s.2) := fun h => hu (Prod.ext h.1 h.2)
    have h2 : ¬ (u.1 = t.1 ∧ u.2 = t.2) := fun h => hu' (Prod.ext h.1 h.2)
    simp [h1, h2]

/-- Two new faces 5 and 7 whose sides 1 and 2 are at the helper face. -/
example : ∃ nbr', glue [5, 7] (fun f i => if (f = 5 ∧ i = 1) ∨ (f = 7 ∧ i = 2) then .helper else .face 0) = some nbr' ∧
    nbr' 5 1 = .face 7 ∧ nbr' 7 2 = .face 5 := by
  obtain ⟨n, h1, h2, h3, -⟩ := C84_glue [5, 7] (fun f i => if (f = 5 ∧ i = 1) ∨ (f = 7 ∧ i = 2) then .helper else .face 0) (5, 1) (7, 2)
    (by decide) (by decide) (by decide) (by decide) (by decide)
  exact ⟨n, h1, h2, h3⟩

/-- C84: with at most one side at the helper face the code throws. -/
theorem C84_glue_throws (elements : List Nat) (nbr : Nbrs) (s : Nat × Fin 3) (hnd : elements.Nodup)
    (h : ∀ u ∈ sides elements, nbr u.1 u.2 = .helper → u = s) : glue elements nbr = none := by
  have hnds : (sides elements).Nodup := by
    unfold sides
    rw [List.nodup_flatMap]
    refine ⟨fun f _ => by simp, hnd.imp fun {a b} hab => ?_⟩
    intro x hx hy
    simp only [List.mem_cons, List.not_mem_nil, or_false] at hx hy
    have hxa : x.1 = a := by rcases hx with h | h | h <;> rw [h]
    have hxb : x.1 = b := by rcases hy with h | h | h <;> rw [h]
    exact hab (hxa.symm.trans hxb)
  have key : ((sides elements).foldl glueStep { nbr := nbr }).done = false := by
    by_cases hs : s ∈ sides elements
    · obtain ⟨l1, l2, e⟩ := List.append_of_mem hs
      rw [e] at hnds h
      have h1 : ∀ u ∈ l1, nbr u.1 u.2 ≠ .helper := fun u hu hh => by
        have := h u (by simp [hu]) hh; subst this; exact not_mem_left hnds hu
      have h2 : ∀ u ∈ l2, nbr u.1 u.2 ≠ .helper := fun u hu hh => by
        have := h u (by simp [hu]) hh; subst this; simp [List.nodup_append, hu] at hnds
      rw [e, List.foldl_append, List.foldl_cons, glue_skip l1 _ h1]
      by_cases hh : nbr s.1 s.2 = .helper
      · have step1 : glueStep { nbr := nbr } s = { nbr := nbr, first := some s } := by
          unfold glueStep
          rw [if_neg (by simp), if_pos hh]
        rw [step1, glue_skip l2 _ h2]
      · have step1 : glueStep { nbr := nbr } s = { nbr := nbr } := by
          unfold glueStep
          rw [if_neg (by simp), if_neg hh]
        rw [step1, glue_skip l2 _ h2]
    · rw [glue_skip (sides elements) { nbr := nbr } fun u hu hh => hs (h u hu hh ▸ hu)]
  unfold glue
  rw [show elements.flatMap (fun f => [(f, (0 : Fin 3)), (f, 1), (f, 2)]) = sides elements from rfl]
  simp [key]

example : glue [5] (fun f i => if f = 5 ∧ i = 1 then .helper else .face 0) = none := C84_glue_throws [5] _ (5, 1) (by decide) (by decide)

end Verif.HoleRemesh
