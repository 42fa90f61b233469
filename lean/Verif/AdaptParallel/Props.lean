import Verif.AdaptParallel.Model
import Mathlib.LinearAlgebra.AffineSpace.FiniteDimensional

/-!
# C226: refinement on several processes
-/

namespace Verif.AdaptParallel

open Verif.Refine Finset

set_option linter.unusedSectionVars false

variable {K V : Type*} [Field K] [LinearOrder K] [IsStrictOrderedRing K] [AddCommGroup V] [Module K V] {d : ℕ}

/-! ## Specification -/

/-- The elements of the mesh `M'` that lie in the element with the corners `q`, as tuples of points. -/
def Pieces (K : Type*) [Field K] [LinearOrder K] [Module K V] (M' : Mesh V d) (q : Fin (d + 1) → V) : Set (Fin (d + 1) → V) :=
  {t | (∃ c' ∈ M'.cells, t = fun i => M'.pos (c' i)) ∧ convexHull K (Set.range t) ⊆ convexHull K (Set.range q)}

/-- Different elements have different sets of vertices. -/
def Distinct (M : Mesh V d) : Prop := ∀ c ∈ M.cells, ∀ c' ∈ M.cells, Set.range c = Set.range c' → c = c'

/-! ## What becomes of a single element -/

/-- An element during the insertion loop: its vertices are vertices of the old mesh, or new ones, which are described by their position. -/
abbrev Cell (V : Type*) (d : ℕ) := Fin (d + 1) → ℕ ⊕ V

open Classical in
/-- The old vertices of an element. -/
noncomputable def olds (c : Cell V d) : Finset ℕ := univ.biUnion fun i => match c i with
  | .inl v => {v}
  | .inr _ => ∅

theorem mem_olds {c : Cell V d} {v : ℕ} : v ∈ olds c ↔ ∃ i, c i = .inl v := by
  unfold olds
  rw [mem_biUnion]
  constructor
  · rintro ⟨i, -, h⟩
    refine ⟨i, ?_⟩
    split at h
    · rename_i u hu
      rw [hu, mem_singleton.1 h]
    · simp at h
  · rintro ⟨i, h⟩
    exact ⟨i, mem_univ _, by rw [h]; simp⟩

def isEnd (F : Finset ℕ) : ℕ ⊕ V → Bool
  | .inl v => decide (v ∈ F)
  | .inr _ => false

open Classical in
/-- The effect of a request on one element. -/
noncomputable def split (F : Finset ℕ) (x : V) (c : Cell V d) : List (Cell V d) :=
  if F ⊆ olds c then ((List.finRange (d + 1)).filter fun i => isEnd F (c i)).map fun i => Function.update c i (.inr x) else [c]

/-- The effect of a list of requests on one element. -/
noncomputable def descend : List (Req V) → Cell V d → List (Cell V d)
  | [], c => [c]
  | r :: rs, c => (split r.ends r.point c).flatMap (descend rs)

theorem olds_split {F : Finset ℕ} {x : V} {c c' : Cell V d} (h : c' ∈ split F x c) : olds c' ⊆ olds c := by
  unfold split at h
  split_ifs at h with hF
  · obtain ⟨i, -, rfl⟩ := List.mem_map.1 h
    intro v hv
    obtain ⟨j, hj⟩ := mem_olds.1 hv
    by_cases hji : j = i
    · subst hji
      simp at hj
    · rw [Function.update_of_ne hji] at hj
      exact mem_olds.2 ⟨j, hj⟩
  · rw [List.mem_singleton.1 h]

open Classical in
/-- Only requests for edges of the element concern it. -/
theorem descend_filter : ∀ (rs : List (Req V)) (c : Cell V d) (S : Finset ℕ), olds c ⊆ S → descend rs c = descend (rs.filter fun r => decide (r.ends ⊆ S)) c
  | [], _, _, _ => rfl
  | r :: rs, c, S, h => by
    rw [List.filter_cons]
    split_ifs with hr
    · unfold descend
      refine List.flatMap_congr fun c' hc' => ?_
      exact descend_filter rs c' S ((olds_split hc').trans h)
    · unfold descend
      have : split r.ends r.point c = [c] := by
        unfold split
        rw [if_neg]
        exact fun hs => hr (decide_eq_true (hs.trans h))
      rw [this, List.flatMap_singleton, descend_filter rs c S h]
      cases h' : rs.filter fun r => decide (r.ends ⊆ S) with
      | nil => rfl
      | cons => rfl

/-! ## The elements after the insertion loop -/

open Classical in
/-- The description of an element of `M'`, given the old mesh. -/
noncomputable def tag (old : Set ℕ) (pos : ℕ → V) (c : Fin (d + 1) → ℕ) : Cell V d := fun i => if c i ∈ old then .inl (c i) else .inr (pos (c i))

theorem olds_tag (old : Set ℕ) (pos : ℕ → V) (c : Fin (d + 1) → ℕ) {v : ℕ} : v ∈ olds (tag old pos c) ↔ v ∈ old ∧ v ∈ verts c := by
  rw [mem_olds, mem_verts]
  constructor
  · rintro ⟨i, h⟩
    unfold tag at h
    split_ifs at h with hi
    have := Sum.inl.inj h
    exact ⟨this ▸ hi, i, this⟩
  · rintro ⟨h, i, rfl⟩
    exact ⟨i, if_pos h⟩

theorem tag_insertAt {M : Mesh V d} {old : Set ℕ} {a b m : ℕ} {x : V} (ha : a ∈ old) (hb : b ∈ old) (hm : Fresh M m) (hmo : m ∉ old) :
    (insertAt M {a, b} m x).cells.map (tag old (insertAt M {a, b} m x).pos) = (M.cells.map (tag old M.pos)).flatMap (split {a, b} x) := by
  unfold insertAt
  simp only [List.map_flatMap, List.flatMap_map]
  refine List.flatMap_congr fun c hc => ?_
  have hsub : ({a, b} : Finset ℕ) ⊆ olds (tag old M.pos c) ↔ ({a, b} : Finset ℕ) ⊆ univ.image c := by
    constructor
    · intro h v hv
      exact ((olds_tag old M.pos c).1 (h hv)).2
    · intro h v hv
      refine (olds_tag old M.pos c).2 ⟨?_, h hv⟩
      simp only [mem_insert, mem_singleton] at hv
      rcases hv with rfl | rfl
      · exact ha
      · exact hb
  have hold : tag old (Function.update M.pos m x) c = tag old M.pos c := by
    funext i
    unfold tag
    rw [Function.update_of_ne (hm c hc i)]
  have hend : ∀ i, isEnd {a, b} (tag old M.pos c i) = decide (c i ∈ ({a, b} : Finset ℕ)) := by
    intro i
    unfold tag
    split_ifs with h
    · rfl
    · have : c i ∉ ({a, b} : Finset ℕ) := by
        simp only [mem_insert, mem_singleton, not_or]
        exact ⟨fun h' => h (h' ▸ ha), fun h' => h (h' ▸ hb)⟩
      simp [isEnd, this]
  unfold splitCell split
  by_cases hF : ({a, b} : Finset ℕ) ⊆ univ.image c
  · rw [if_pos hF, if_pos (hsub.2 hF), List.map_map]
    simp only [hend]
    refine List.map_congr_left fun i _ => ?_
    funext j
    simp only [Function.comp]
    by_cases hji : j = i
    · subst hji
      simp [tag, hmo]
    · rw [Function.update_of_ne hji, ← hold]
      unfold tag
      rw [Function.update_of_ne hji]
  · rw [if_neg hF, if_neg (fun h => hF (hsub.1 h)), List.map_singleton, hold]

/-- The elements after the insertion loop, in order, are determined by the requests. -/
theorem cells_carried {M M' : Mesh V d} {rs : List (Req V)} (h : Carried M rs M') : ∀ (old : Set ℕ), (∀ v ∈ old, v ∈ vertices M) → (∀ c ∈ M.cells, Function.Injective c) →
    (∀ r ∈ rs, ∀ a b, r.edge = some (a, b) → a ∈ old ∧ b ∈ old) → M'.cells.map (tag old M'.pos) = (M.cells.map (tag old M.pos)).flatMap (descend rs) := by
  induction h with
  | @nil M =>
    intro old _ _ _
    simp [descend]
  | @cons M M' a b x m c rs hc hab ha hb hm _ ih =>
    intro old hold hinj hrs
    obtain ⟨ha', hb'⟩ := hrs ⟨some (a, b), x⟩ (by simp) a b rfl
    have hmo : m ∉ old := fun h => by
      obtain ⟨c', hc', i, hi⟩ := hold m h
      exact hm c' hc' i hi
    rw [ih old (fun v hv => vertices_insertAt hinj (by rw [card_pair hab]) (hold v hv)) ?_ fun r hr => hrs r (by simp [hr]), tag_insertAt ha' hb' hm hmo, List.flatMap_assoc]
    · rfl
    · intro c' hc'
      obtain ⟨c, hc, ⟨-, rfl⟩ | ⟨-, i, -, rfl⟩⟩ := mem_insertAt.1 hc'
      · exact hinj _ hc
      · exact injective_update (hinj c hc) (fun j => hm c hc j) i

/-- The points of a description. -/
def points (pos : ℕ → V) (c : Cell V d) : Fin (d + 1) → V := fun i => match c i with
  | .inl v => pos v
  | .inr x => x

theorem points_tag {old : Set ℕ} {pos pos' : ℕ → V} (h : ∀ v ∈ old, pos' v = pos v) (c : Fin (d + 1) → ℕ) : points pos (tag old pos' c) = fun i => pos' (c i) := by
  funext i
  unfold points tag
  split_ifs with hi
  · exact (h _ hi).symm
  · rfl

/-! ## The requests -/

open Classical in
/-- The requests for edges in `S` are the same, if all elements whose longest edge lies in `S` are present. -/
theorem requests_filter {len : V → V → K} {edges : List (Fin (d + 1) × Fin (d + 1))} {isInterface : ℕ → ℕ → Bool} {M : Mesh V d} {S : Finset ℕ} {h : (Fin (d + 1) → ℕ) → Bool} :
    ∀ {cs : List (Fin (d + 1) → ℕ)} {ins ins' : List (Finset ℕ)},
      (∀ c ∈ cs, ∀ e, LongestEdge.refinementEdge (fun i j => len (M.pos (c i)) (M.pos (c j))) edges = some e → {c e.1, c e.2} ⊆ S → h c = true) →
      (∀ F, F ⊆ S → (F ∈ ins ↔ F ∈ ins')) →
      (markedRequests len edges isInterface M cs ins).filter (fun r => decide (r.ends ⊆ S)) =
        (markedRequests len edges isInterface M (cs.filter h) ins').filter fun r => decide (r.ends ⊆ S)
  | [], ins, ins', _, _ => by simp [markedRequests]
  | c :: cs, ins, ins', hh, hins => by
    have hh' := fun c' hc' => hh c' (List.mem_cons_of_mem c hc')
    have ih := fun {i i'} hi => requests_filter (isInterface := isInterface) (ins := i) (ins' := i') hh' hi
    conv_lhs => unfold markedRequests
    rw [List.filter_cons]
    cases he : LongestEdge.refinementEdge (fun i j => len (M.pos (c i)) (M.pos (c j))) edges with
    | none =>
      simp only []
      rw [ih hins]
      split_ifs with hc
      · conv_rhs => unfold markedRequests
        rw [he]
      · rfl
    | some e =>
      simp only []
      by_cases hS : ({c e.1, c e.2} : Finset ℕ) ⊆ S
      · rw [if_pos (hh c List.mem_cons_self e he hS)]
        conv_rhs => unfold markedRequests
        rw [he]
        simp only []
        by_cases hi : isInterface (c e.1) (c e.2) = true
        · rw [if_pos hi, if_pos hi, ih hins]
        · rw [if_neg hi, if_neg hi]
          by_cases hm : ({c e.1, c e.2} : Finset ℕ) ∈ ins
          · rw [if_pos hm, if_pos ((hins _ hS).1 hm), ih hins]
          · rw [if_neg hm, if_neg fun h => hm ((hins _ hS).2 h), List.filter_cons, List.filter_cons, ih]
            intro F hF
            rw [List.mem_cons, List.mem_cons, hins F hF]
      · have hskip : ∀ {l : List (Fin (d + 1) → ℕ)} {i : List (Finset ℕ)}, (∀ {i'}, (∀ F, F ⊆ S → (F ∈ i ↔ F ∈ i')) →
            (markedRequests len edges isInterface M l i).filter (fun r => decide (r.ends ⊆ S)) = (markedRequests len edges isInterface M l i').filter fun r => decide (r.ends ⊆ S)) →
            (markedRequests len edges isInterface M (c :: l) i).filter (fun r => decide (r.ends ⊆ S)) =
              (markedRequests len edges isInterface M l i).filter fun r => decide (r.ends ⊆ S) := by
          intro l i hl
          conv_lhs => unfold markedRequests
          rw [he]
          simp only []
          by_cases hi : isInterface (c e.1) (c e.2) = true
          · rw [if_pos hi]
          · rw [if_neg hi]
            by_cases hm : ({c e.1, c e.2} : Finset ℕ) ∈ i
            · rw [if_pos hm]
            · rw [if_neg hm, List.filter_cons, if_neg (by simpa [Req.ends, refineMarked] using hS)]
              refine (hl fun F hF => ?_).symm
              rw [List.mem_cons]
              exact ⟨Or.inr, fun h => h.resolve_left fun h' => hS (h' ▸ hF)⟩
        have hl : ∀ {i i' : List (Finset ℕ)}, (∀ F, F ⊆ S → (F ∈ i ↔ F ∈ i')) →
            (markedRequests len edges isInterface M (cs.filter h) i).filter (fun r => decide (r.ends ⊆ S)) =
              (markedRequests len edges isInterface M (cs.filter h) i').filter fun r => decide (r.ends ⊆ S) :=
          fun {i i'} hi => (ih (i := i) (i' := i) fun _ _ => Iff.rfl).symm.trans (ih hi)
        have hl' : ∀ {i i' : List (Finset ℕ)}, (∀ F, F ⊆ S → (F ∈ i ↔ F ∈ i')) →
            (markedRequests len edges isInterface M cs i).filter (fun r => decide (r.ends ⊆ S)) =
              (markedRequests len edges isInterface M cs i').filter fun r => decide (r.ends ⊆ S) :=
          fun {i i'} hi => (ih hi).trans (ih (i := i') (i' := i') fun _ _ => Iff.rfl).symm
        have h1 := hskip (l := cs) (i := ins) hl'
        conv_lhs at h1 => unfold markedRequests
        rw [he] at h1
        simp only [] at h1
        rw [h1, ih hins]
        split_ifs with hc
        · rw [hskip hl]
        · rfl

/-! ## Elements inside an element -/

/-- The points of requests lie between the end points of their edges. -/
def Between (K : Type*) [Field K] [LinearOrder K] [Module K V] (pos : ℕ → V) (r : Req V) : Prop := r.point ∈ convexHull K (pos '' (r.ends : Set ℕ))

theorem hull_split {pos : ℕ → V} {F : Finset ℕ} {x : V} (hx : x ∈ convexHull K (pos '' (F : Set ℕ))) {c c' : Cell V d} (h : c' ∈ split F x c) :
    convexHull K (Set.range (points pos c')) ⊆ convexHull K (Set.range (points pos c)) := by
  unfold split at h
  split_ifs at h with hF
  · obtain ⟨i, -, rfl⟩ := List.mem_map.1 h
    refine convexHull_min ?_ (convex_convexHull K _)
    rintro _ ⟨j, rfl⟩
    by_cases hji : j = i
    · subst hji
      have : points pos (Function.update c j (.inr x)) j = x := by simp [points]
      rw [this]
      refine convexHull_mono ?_ hx
      rintro _ ⟨v, hv, rfl⟩
      obtain ⟨k, hk⟩ := mem_olds.1 (hF hv)
      exact ⟨k, by simp [points, hk]⟩
    · refine subset_convexHull K _ ⟨j, ?_⟩
      simp [points, Function.update_of_ne hji]
  · rw [List.mem_singleton.1 h]

theorem hull_descend {pos : ℕ → V} : ∀ {rs : List (Req V)} {c c' : Cell V d}, (∀ r ∈ rs, Between K pos r) → c' ∈ descend rs c →
    convexHull K (Set.range (points pos c')) ⊆ convexHull K (Set.range (points pos c))
  | [], c, c', _, h => by
    rw [List.mem_singleton.1 h]
  | r :: rs, c, c', hb, h => by
    obtain ⟨c1, h1, h2⟩ := List.mem_flatMap.1 h
    exact (hull_descend (fun r hr => hb r (by simp [hr])) h2).trans (hull_split (hb r (by simp)) h1)

/-- A simplex lies in only one element. -/
theorem element_unique {M : Mesh V d} (hM : Conforming K M) (hd : Distinct M) {c c1 : Fin (d + 1) → ℕ} (hc : c ∈ M.cells) (hc1 : c1 ∈ M.cells) {t : Fin (d + 1) → V} (ht : AffineIndependent K t)
    (h : convexHull K (Set.range t) ⊆ convexHull K (Set.range fun i => M.pos (c i))) (h1 : convexHull K (Set.range t) ⊆ convexHull K (Set.range fun i => M.pos (c1 i))) : c = c1 := by
  classical
  by_contra hne
  have hS : (verts c ∩ verts c1).card ≤ d := by
    have h2 : (verts c).card = d + 1 := by rw [verts, card_image_of_injective _ (hM.inj c hc), card_univ, Fintype.card_fin]
    have h3 : (verts c1).card = d + 1 := by rw [verts, card_image_of_injective _ (hM.inj c1 hc1), card_univ, Fintype.card_fin]
    by_contra hgt
    have e1 : verts c ∩ verts c1 = verts c := eq_of_subset_of_card_le inter_subset_left (by omega)
    have e2 : verts c ∩ verts c1 = verts c1 := eq_of_subset_of_card_le inter_subset_right (by omega)
    refine hne (hd c hc c1 hc1 ?_)
    ext v
    have := congrArg (v ∈ ·) (e1.symm.trans e2)
    simpa only [mem_verts, Set.mem_range, eq_iff_iff] using this
  have hsub : Set.range t ⊆ convexHull K (M.pos '' ((verts c ∩ verts c1 : Finset ℕ) : Set ℕ)) := by
    rintro _ ⟨i, rfl⟩
    have := hM.meet c hc c1 hc1 ⟨h (subset_convexHull K _ ⟨i, rfl⟩), h1 (subset_convexHull K _ ⟨i, rfl⟩)⟩
    convert this using 3
    ext v
    simp [mem_verts]
  have hcard : (univ.image t).card ≤ ((verts c ∩ verts c1).image M.pos).card := by
    refine AffineIndependent.card_le_card_of_subset_affineSpan (k := K) ?_ ?_
    · have := ht.range
      convert this using 2 <;> simp
    · rw [coe_image, coe_univ, Set.image_univ, coe_image]
      exact hsub.trans (convexHull_subset_affineSpan _)
  rw [card_image_of_injective _ ht.injective, card_univ, Fintype.card_fin] at hcard
  have := card_image_le (s := verts c ∩ verts c1) (f := M.pos)
  omega

/-- The elements in an element are what the requests make of it. -/
theorem pieces_eq {M M' : Mesh V d} {rs : List (Req V)} (hM : Conforming K M) (hM' : Conforming K M') (hd : Distinct M) (hcar : Carried M rs M')
    (hpos : ∀ v ∈ vertices M, M'.pos v = M.pos v) (hold : ∀ r ∈ rs, ∀ a b, r.edge = some (a, b) → a ∈ vertices M ∧ b ∈ vertices M) (hb : ∀ r ∈ rs, Between K M.pos r)
    {c : Fin (d + 1) → ℕ} (hc : c ∈ M.cells) : Pieces K M' (fun i => M.pos (c i)) = {t | ∃ c' ∈ descend rs (tag (vertices M) M.pos c), t = points M.pos c'} := by
  have hcells := cells_carried hcar (vertices M) (fun _ h => h) hM.inj hold
  ext t
  constructor
  · rintro ⟨⟨c', hc', rfl⟩, hsub⟩
    have : tag (vertices M) M'.pos c' ∈ (M.cells.map (tag (vertices M) M.pos)).flatMap (descend rs) := hcells ▸ List.mem_map.2 ⟨c', hc', rfl⟩
    obtain ⟨c1', h1, h2⟩ := List.mem_flatMap.1 this
    obtain ⟨c1, hc1, rfl⟩ := List.mem_map.1 h1
    have h3 := hull_descend hb h2
    rw [points_tag hpos, points_tag (fun _ _ => rfl)] at h3
    obtain rfl := element_unique hM hd hc hc1 (hM'.nondegenerate c' hc') hsub h3
    exact ⟨_, h2, (points_tag hpos c').symm⟩
  · rintro ⟨c'', h2, rfl⟩
    have : c'' ∈ M'.cells.map (tag (vertices M) M'.pos) := hcells ▸ List.mem_flatMap.2 ⟨_, List.mem_map.2 ⟨c, hc, rfl⟩, h2⟩
    obtain ⟨c', hc', rfl⟩ := List.mem_map.1 this
    have h3 := hull_descend hb h2
    rw [points_tag (fun _ _ => rfl) c] at h3
    exact ⟨⟨c', hc', points_tag hpos c'⟩, h3⟩

theorem requests_edge (hd : 0 < d) {len : V → V → K} (hsym : ∀ p q, len p q = len q p) (hpos : ∀ p q, 0 ≤ len p q) {edges : List (Fin (d + 1) × Fin (d + 1))}
    (hedges : LongestEdge.AllEdges edges) {isInterface : ℕ → ℕ → Bool} {M : Mesh V d} {cs : List (Fin (d + 1) → ℕ)} (hcs : ∀ c ∈ cs, c ∈ M.cells) {r : Req V}
    (hr : r ∈ markedRequests len edges isInterface M cs []) : OnEdge K M r ∧ Between K M.pos r ∧ (∀ a b, r.edge = some (a, b) → a ∈ vertices M ∧ b ∈ vertices M) ∧
      ∃ c ∈ cs, ∃ i j, i ≠ j ∧ r.edge = some (c i, c j) := by
  obtain ⟨c, hc, e, he, -, rfl⟩ := mem_markedRequests hr
  have : Nontrivial (Fin (d + 1)) := Fin.nontrivial_iff_two_le.2 (by omega)
  obtain ⟨i, j, h1, h2, -⟩ := LongestEdge.refinementEdge_longest len hsym hpos (fun i => M.pos (c i)) hedges
  rw [he] at h1
  obtain rfl : e = (i, j) := by simpa using h1
  refine ⟨C187_marked (hcs c hc) (hedges.1 _ h2), ?_, ?_, c, hc, i, j, hedges.1 _ h2, rfl⟩
  · unfold Between refineMarked Req.ends
    simp only [coe_insert, coe_singleton, Set.image_pair]
    rw [convexHull_pair, smul_add]
    exact ⟨1 / 2, 1 / 2, by positivity, by positivity, by norm_num, rfl⟩
  · intro a b hab
    simp only [refineMarked, Option.some.injEq, Prod.mk.injEq] at hab
    obtain ⟨rfl, rfl⟩ := hab
    exact ⟨⟨c, hcs c hc, i, rfl⟩, ⟨c, hcs c hc, j, rfl⟩⟩

section
variable {len : V → V → K} {edges : List (Fin (d + 1) × Fin (d + 1))} {isInterface : ℕ → ℕ → Bool} {M : Mesh V d}

theorem carried_conforming (hd : 0 < d) (hsym : ∀ p q, len p q = len q p) (hpos : ∀ p q, 0 ≤ len p q) (hedges : LongestEdge.AllEdges edges) (hM : Conforming K M)
    {mark present : (Fin (d + 1) → ℕ) → Bool} {M' : Mesh V d} (h : Carried M (requestsOn K len edges isInterface mark present M) M') :
    Conforming K M' ∧ (∀ v ∈ vertices M, M'.pos v = M.pos v) ∧ Nested K M M' := by
  have hcs : ∀ c ∈ M.cells.filter (fun c => mark c && present c), c ∈ M.cells := fun c hc => (List.mem_filter.1 hc).1
  have hon : ∀ r ∈ requestsOn K len edges isInterface mark present M, OnEdge K M r := fun r hr => (requests_edge hd hsym hpos hedges hcs hr).1
  have hcell : ∀ pre r post M1, requestsOn K len edges isInterface mark present M = pre ++ r :: post → Run K M pre M1 → r.edge = none → InElement K M1 r.point := by
    intro pre r post M1 he _ hr
    obtain ⟨-, -, -, c, -, i, j, -, h⟩ := requests_edge hd hsym hpos hedges (isInterface := isInterface) (r := r) hcs (by
      show r ∈ requestsOn K len edges isInterface mark present M
      rw [he]; simp)
    rw [hr] at h
    simp at h
  obtain ⟨h1, -, h3⟩ := C187_conforming hd hM h.run (fun r hr _ _ => hon r hr) hcell
  exact ⟨h1, fun v hv => (h3 v hv).2, C193_nested hd hM h.run (fun r hr _ _ => hon r hr) hcell⟩

/-- **C226** In every dimension: an element of a process is refined by `adapt()` on this process in the same way as in a serial run, if all elements with an edge in common with it are present on the
process. The processes mark the same elements; no request is dropped. -/
theorem C226_element (hd : 0 < d) (hsym : ∀ p q, len p q = len q p) (hpos : ∀ p q, 0 ≤ len p q) (hedges : LongestEdge.AllEdges edges) (hM : Conforming K M) (hdist : Distinct M)
    {mark present : (Fin (d + 1) → ℕ) → Bool} {Ms Mp : Mesh V d} (hs : Carried M (requestsOn K len edges isInterface mark (fun _ => true) M) Ms)
    (hp : Carried M (requestsOn K len edges isInterface mark present M) Mp) {c : Fin (d + 1) → ℕ} (hc : c ∈ M.cells)
    (hpres : ∀ c' ∈ M.cells, ∀ v w, v ≠ w → v ∈ Set.range c ∩ Set.range c' → w ∈ Set.range c ∩ Set.range c' → present c' = true) :
    Pieces K Mp (fun i => M.pos (c i)) = Pieces K Ms (fun i => M.pos (c i)) := by
  classical
  have : Nontrivial (Fin (d + 1)) := Fin.nontrivial_iff_two_le.2 (by omega)
  have hcs : ∀ (pr : (Fin (d + 1) → ℕ) → Bool), ∀ c ∈ M.cells.filter (fun c => mark c && pr c), c ∈ M.cells := fun _ c hc => (List.mem_filter.1 hc).1
  obtain ⟨s1, s2, -⟩ := carried_conforming hd hsym hpos hedges hM hs
  obtain ⟨p1, p2, -⟩ := carried_conforming hd hsym hpos hedges hM hp
  rw [pieces_eq hM s1 hdist hs s2 (fun r hr => (requests_edge hd hsym hpos hedges (hcs _) hr).2.2.1) (fun r hr => (requests_edge hd hsym hpos hedges (hcs _) hr).2.1) hc,
    pieces_eq hM p1 hdist hp p2 (fun r hr => (requests_edge hd hsym hpos hedges (hcs _) hr).2.2.1) (fun r hr => (requests_edge hd hsym hpos hedges (hcs _) hr).2.1) hc]
  have holds : olds (tag (vertices M) M.pos c) ⊆ verts c := fun v hv => ((olds_tag _ _ _).1 hv).2
  have key : (requestsOn K len edges isInterface mark (fun _ => true) M).filter (fun r => decide (r.ends ⊆ verts c)) =
      (requestsOn K len edges isInterface mark present M).filter fun r => decide (r.ends ⊆ verts c) := by
    unfold requestsOn
    have e : M.cells.filter (fun c => mark c && present c) = (M.cells.filter fun c => mark c && true).filter present := by
      rw [List.filter_filter]
      refine List.filter_congr fun c _ => ?_
      cases mark c <;> simp
    rw [e]
    refine requests_filter ?_ fun _ _ => Iff.rfl
    intro c' hc' e he hsub
    obtain ⟨i, j, h1, h2, -⟩ := LongestEdge.refinementEdge_longest len hsym hpos (fun i => M.pos (c' i)) hedges
    rw [he] at h1
    obtain rfl : e = (i, j) := by simpa using h1
    have hc'' := (List.mem_filter.1 hc').1
    refine hpres c' hc'' (c' i) (c' j) (fun h => hedges.1 _ h2 (hM.inj c' hc'' h)) ⟨?_, i, rfl⟩ ⟨?_, j, rfl⟩
    · exact mem_verts.1 (hsub (by simp))
    · exact mem_verts.1 (hsub (by simp))
  rw [descend_filter _ _ _ holds, ← key, ← descend_filter _ _ _ holds]

/-- **C226** Both runs are possible: no request hinders another one. -/
theorem C226_possible (hd : 0 < d) (hsym : ∀ p q, len p q = len q p) (hpos : ∀ p q, 0 ≤ len p q) (hedges : LongestEdge.AllEdges edges) (hM : Conforming K M)
    (mark present : (Fin (d + 1) → ℕ) → Bool) : ∃ M', Carried M (requestsOn K len edges isInterface mark present M) M' := by
  refine exists_carried distinct.1 fun r hr => ?_
  have hcs : ∀ c ∈ M.cells.filter (fun c => mark c && present c), c ∈ M.cells := fun c hc => (List.mem_filter.1 hc).1
  obtain ⟨-, -, -, c, hc, i, j, hij, h⟩ := requests_edge hd hsym hpos hedges hcs hr
  refine ⟨c i, c j, h, fun h' => hij (hM.inj c (hcs c hc) h'), c, hcs c hc, fun v hv => ?_⟩
  simp only [mem_insert, mem_singleton] at hv
  rcases hv with rfl | rfl
  · exact mem_verts.2 ⟨i, rfl⟩
  · exact mem_verts.2 ⟨j, rfl⟩

end

section
variable {len : V → V → K} {edges : List (Fin 3 × Fin 3)} {isInterface : ℕ → ℕ → Bool} {M : Mesh V 2}

/-- **C226** In 2D every process refines its own elements as in a serial run. -/
theorem C226_plane (hsym : ∀ p q, len p q = len q p) (hpos : ∀ p q, 0 ≤ len p q) (hedges : LongestEdge.AllEdges edges) (hM : Conforming K M) (hdist : Distinct M)
    {mark present : (Fin 3 → ℕ) → Bool} {Ms Mp : Mesh V 2} (hs : Carried M (requestsOn K len edges isInterface mark (fun _ => true) M) Ms)
    (hp : Carried M (requestsOn K len edges isInterface mark present M) Mp) {owner : (Fin 3 → ℕ) → ℕ} {p : ℕ} (hpres : ∀ c ∈ M.cells, presentOn owner M p c = true → present c = true)
    {c : Fin 3 → ℕ} (hc : c ∈ M.cells) (ho : owner c = p) : Pieces K Mp (fun i => M.pos (c i)) = Pieces K Ms (fun i => M.pos (c i)) := by
  refine C226_element (by decide) hsym hpos hedges hM hdist hs hp hc fun c' hc' v w hvw hv hw => hpres c' hc' ?_
  unfold presentOn
  rw [Bool.or_eq_true]
  by_cases hcc : c' = c
  · left
    simp [hcc, ho]
  · right
    rw [List.any_eq_true]
    refine ⟨c, hc, ?_⟩
    simp only [Bool.and_eq_true, decide_eq_true_eq]
    refine ⟨ho, le_antisymm ?_ ?_⟩
    · have h2 : (univ.image c).card = 3 := by rw [card_image_of_injective _ (hM.inj c hc), card_univ, Fintype.card_fin]
      have h3 : (univ.image c').card = 3 := by rw [card_image_of_injective _ (hM.inj c' hc'), card_univ, Fintype.card_fin]
      by_contra hgt
      have e1 : univ.image c' ∩ univ.image c = univ.image c' := eq_of_subset_of_card_le inter_subset_left (by omega)
      have e2 : univ.image c' ∩ univ.image c = univ.image c := eq_of_subset_of_card_le inter_subset_right (by omega)
      refine hcc (hdist c' hc' c hc ?_)
      ext u
      have := congrArg (u ∈ ·) (e1.symm.trans e2)
      simpa [eq_iff_iff] using this
    · refine (card_pair hvw).symm.le.trans (card_le_card fun u hu => ?_)
      simp only [mem_insert, mem_singleton] at hu
      obtain ⟨⟨i, hi⟩, ⟨j, hj⟩⟩ : u ∈ Set.range c ∩ Set.range c' := by
        rcases hu with rfl | rfl
        · exact hv
        · exact hw
      exact mem_inter.2 ⟨mem_image.2 ⟨j, mem_univ _, hj⟩, mem_image.2 ⟨i, mem_univ _, hi⟩⟩

/-- **C226** In 2D the elements of the serial run are exactly what the processes make of their own elements; so these fit together to a conforming mesh of the domain. -/
theorem C226_grid (hsym : ∀ p q, len p q = len q p) (hpos : ∀ p q, 0 ≤ len p q) (hedges : LongestEdge.AllEdges edges) (hM : Conforming K M) (hdist : Distinct M)
    {mark : (Fin 3 → ℕ) → Bool} {present : ℕ → (Fin 3 → ℕ) → Bool} {Ms : Mesh V 2} {Mp : ℕ → Mesh V 2} (hs : Carried M (requestsOn K len edges isInterface mark (fun _ => true) M) Ms)
    (hp : ∀ p, Carried M (requestsOn K len edges isInterface mark (present p) M) (Mp p)) {owner : (Fin 3 → ℕ) → ℕ}
    (hpres : ∀ p, ∀ c ∈ M.cells, presentOn owner M p c = true → present p c = true) :
    {t | ∃ c' ∈ Ms.cells, t = fun i => Ms.pos (c' i)} = {t | ∃ p, ∃ c ∈ M.cells, owner c = p ∧ t ∈ Pieces K (Mp p) fun i => M.pos (c i)} := by
  obtain ⟨-, -, hn⟩ := carried_conforming (by decide) hsym hpos hedges hM hs
  ext t
  constructor
  · rintro ⟨c', hc', rfl⟩
    obtain ⟨c, hc, hsub⟩ := hn.inside c' hc'
    refine ⟨owner c, c, hc, rfl, ?_⟩
    rw [C226_plane hsym hpos hedges hM hdist hs (hp (owner c)) (hpres (owner c)) hc rfl]
    exact ⟨⟨c', hc', rfl⟩, hsub⟩
  · rintro ⟨p, c, hc, ho, ht⟩
    rw [C226_plane hsym hpos hedges hM hdist hs (hp p) (hpres p) hc ho] at ht
    exact ht.1

end

end Verif.AdaptParallel
