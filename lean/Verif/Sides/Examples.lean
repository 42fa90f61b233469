import Verif.Sides.History
import Mathlib.Data.Fin.VecNotation

/-!
# Sides of the interface: examples, and a removal that joins two sides
-/

namespace Verif.Sides

open Finset Verif.Refine Verif.MoveGeo

/-- A vertex that was inserted can be removed again; the elements that were there before fill the hole. -/
theorem fills_undo {M : Mesh (Fin 2 → ℝ) 2} (hM : Proper ℝ M) {F : Finset ℕ} (hF : 1 < F.card) {m : ℕ} {x : Fin 2 → ℝ} {μ : ℕ → ℝ} (hin : Inside M.pos F x μ) (hm : Fresh M m) :
    Fills ℝ (insertAt M F m x) m (M.cells.filter fun c => F ⊆ verts c) := by
  have hinj := hM.conforming.inj
  have hmem : ∀ n, n ∈ (M.cells.filter fun c => F ⊆ verts c) ↔ n ∈ M.cells ∧ F ⊆ verts n := fun n => by
    rw [List.mem_filter, decide_eq_true_eq]
  have hpos : ∀ n ∈ M.cells, ∀ i, (insertAt M F m x).pos (n i) = M.pos (n i) := fun n hn i => Function.update_of_ne (hm n hn i) _ _
  have hhull : ∀ n ∈ M.cells, hull ℝ (insertAt M F m x) n = hull ℝ M n := by
    intro n hn
    unfold hull
    simp only [hpos n hn]
  refine ⟨fun n hn i => ?_, fun n hn => ?_, fun _ n hn n' hn' => ?_, fun _ y => ⟨?_, ?_⟩, fun _ c hc hcm => ?_⟩
  · obtain ⟨hn, hFn⟩ := (hmem n).1 hn
    obtain ⟨f, hf, hne⟩ := Finset.exists_mem_ne hF (n i)
    obtain ⟨j, rfl⟩ := mem_verts.1 (hFn hf)
    refine ⟨hm n hn i, Function.update n j m, mem_insertAt.2 ⟨n, hn, Or.inr ⟨hFn, j, hf, rfl⟩⟩, ⟨j, by simp⟩, i, ?_⟩
    rw [Function.update_of_ne]
    rintro rfl
    exact hne rfl
  · obtain ⟨hn, -⟩ := (hmem n).1 hn
    simp only [hpos n hn]
    exact hM.conforming.nondegenerate n hn
  · obtain ⟨hn, -⟩ := (hmem n).1 hn
    obtain ⟨hn', -⟩ := (hmem n').1 hn'
    rw [hhull n hn, hhull n' hn']
    have : (insertAt M F m x).pos '' (Set.range n ∩ Set.range n') = M.pos '' (Set.range n ∩ Set.range n') := by
      refine Set.image_congr ?_
      rintro v ⟨⟨i, rfl⟩, -⟩
      exact hpos n hn i
    rw [this]
    exact hM.conforming.meet n hn n' hn'
  · rintro ⟨n, hn, hy⟩
    obtain ⟨hn, hFn⟩ := (hmem n).1 hn
    rw [hhull n hn] at hy
    obtain ⟨c', ⟨h, -⟩ | ⟨-, i, hi, rfl⟩, hy'⟩ := cover_insertAt hin hm hinj hn hy
    · exact absurd hFn h
    · exact ⟨_, mem_insertAt.2 ⟨n, hn, Or.inr ⟨hFn, i, hi, rfl⟩⟩, ⟨i, by simp⟩, hy'⟩
  · rintro ⟨c', hc', ⟨k, hk⟩, hy⟩
    obtain ⟨c, hc, h⟩ := mem_insertAt.1 hc'
    obtain ⟨w, hw, rfl⟩ := (hull_iff _ _ _).1 hy
    obtain ⟨f, g⟩ := fold_weight hin hm hinj hc h hw
    have hFc : F ⊆ verts c := by
      rcases h with ⟨-, rfl⟩ | ⟨h, -⟩
      · exact absurd hk (hm _ hc k)
      · exact h
    refine ⟨c, (hmem c).2 ⟨hc, hFc⟩, ?_⟩
    rw [hhull c hc]
    exact (hull_iff _ _ _).2 ⟨_, f, g⟩
  · obtain ⟨e, he, ⟨-, rfl⟩ | ⟨hFe, i, hi, rfl⟩⟩ := mem_insertAt.1 hc
    · obtain ⟨k, hk⟩ := hcm
      exact absurd hk (hm _ he k)
    · refine ⟨e, (hmem e).2 ⟨he, hFe⟩, ?_⟩
      intro v hv
      rw [Finset.mem_sdiff] at hv
      have := hv.1
      rw [show Finset.univ.image (Function.update e i m) = verts (Function.update e i m) from rfl, verts_update (hinj e he), Finset.mem_insert, Finset.mem_erase] at this
      rcases this with rfl | ⟨-, h⟩
      · exact absurd (Finset.mem_singleton_self _) hv.2
      · exact h

/-- The edges of a mesh. -/
def edgesOf (M : Mesh (Fin 2 → ℝ) 2) : List (List ℕ) := M.cells.flatMap fun c => [InterfaceOps.key (c 0) (c 1), InterfaceOps.key (c 0) (c 2), InterfaceOps.key (c 1) (c 2)]

theorem edgesOf_spec (M : Mesh (Fin 2 → ℝ) 2) : EdgesOf M (edgesOf M) := by
  intro e
  simp only [edgesOf, List.mem_flatMap, List.mem_cons, List.not_mem_nil, or_false]
  constructor
  · rintro ⟨c, hc, rfl | rfl | rfl⟩
    · exact ⟨c, hc, 0, 1, by decide, rfl⟩
    · exact ⟨c, hc, 0, 2, by decide, rfl⟩
    · exact ⟨c, hc, 1, 2, by decide, rfl⟩
  · rintro ⟨c, hc, i, j, hij, rfl⟩
    refine ⟨c, hc, ?_⟩
    fin_cases i <;> fin_cases j <;>
      first
      | exact absurd rfl hij
      | exact Or.inl rfl
      | exact Or.inr (Or.inl rfl)
      | exact Or.inr (Or.inr rfl)
      | exact Or.inl (InterfaceOps.key_comm _ _)
      | exact Or.inr (Or.inl (InterfaceOps.key_comm _ _))
      | exact Or.inr (Or.inr (InterfaceOps.key_comm _ _))

/-! ## A triangle with a vertex inside -/

/-- One element. -/
noncomputable def tri : Mesh (Fin 2 → ℝ) 2 where
  cells := [![0, 1, 2]]
  pos := fun v => if v = 0 then ![0, 0] else if v = 1 then ![3, 0] else ![0, 3]

/-- The grid without interface. -/
noncomputable def start : Grid := ⟨tri, ⟨[], fun _ => false, edgesOf tri, 3⟩⟩

theorem proper_tri : Proper ℝ tri := by
  have hp : Positive tri := by
    intro c hc
    simp only [tri, List.mem_singleton] at hc
    subst hc
    rw [volume_orient]
    simp [orient, tri]
  refine ⟨⟨fun c hc => independent_of_volume (hp c hc).ne', ?_⟩, hp, by simp [Once, tri]⟩
  intro c hc c' hc'
  have e : c' = c := by
    simp only [tri, List.mem_singleton] at hc hc'
    rw [hc, hc']
  rw [e, Set.inter_self, Set.inter_self, ← Set.range_comp]
  rfl

theorem valid_start : Valid start := by
  refine ⟨proper_tri, edgesOf_spec _, ⟨by simp [start], by simp [start], fun e he => ?_⟩⟩
  obtain ⟨c, hc, i, j, hij, rfl⟩ := (edgesOf_spec tri e).1 he
  have hb : ∀ c ∈ tri.cells, ∀ i, c i < 3 := by decide +kernel
  exact ⟨c i, c j, fun e => hij (proper_tri.conforming.inj c hc e), rfl, hb c hc i, hb c hc j⟩

/-- `addInterface` of a facet. -/
theorem Valid.addInterface {g : Grid} (h : Valid g) {a b : ℕ} (hab : a ≠ b) (he : InterfaceOps.key a b ∈ g.s.edges) (k : ℕ) :
    Valid ⟨g.M, InterfaceOps.addInterface g.s [a, b] k⟩ := by
  have hi : InterfaceOps.Inv ⟨g.s, [], []⟩ := ⟨h.ok, by simp⟩
  have hs : InterfaceOps.Step true ⟨g.s, [], []⟩ ⟨InterfaceOps.addInterface g.s [a, b] k, [], []⟩ := InterfaceOps.Step.addInterface hab he (by simp)
  have ho := (InterfaceOps.inv_step hs hi).ok
  refine ⟨h.mesh, ?_, ho⟩
  have : (InterfaceOps.addInterface g.s [a, b] k).edges = g.s.edges := by
    unfold InterfaceOps.addInterface
    split <;> rfl
  show EdgesOf g.M (InterfaceOps.addInterface g.s [a, b] k).edges
  rw [this]
  exact h.edges

/-- A vertex is inserted into the element. -/
noncomputable def fanMesh : Mesh (Fin 2 → ℝ) 2 := insertAt tri (Finset.univ.image ![0, 1, 2]) 3 ![1, 1]

noncomputable def fan : Grid := ⟨fanMesh, ⟨[], fun _ => false, edgesOf fanMesh, 4⟩⟩

/-- A point with positive barycentric coordinates. -/
theorem in_element {d : ℕ} {M : Mesh (Fin d → ℝ) d} (hM : Proper ℝ M) {c : Fin (d + 1) → ℕ} (hc : c ∈ M.cells) {x : Fin d → ℝ} (hx : x ∈ inside M c) :
    x ∈ hull ℝ M c ∧ ∀ i, x ∉ convexHull ℝ (M.pos '' (c '' {i}ᶜ)) := by
  have hI : Facets M fun _ => False := fun _ h => h.elim
  refine ⟨inside_closed hM hI hx, fun i hi => ?_⟩
  have hinj := hM.conforming.inj c hc
  have hI' : Facets M fun F => F = (verts c).erase (c i) := by
    rintro F rfl
    exact ⟨by rw [Finset.card_erase_of_mem (mem_verts.2 ⟨i, rfl⟩), card_verts hinj, Nat.add_sub_cancel], c, hc, Finset.erase_subset _ _⟩
  refine (inside_free hM hI' hc hx).2 ⟨_, rfl, ?_⟩
  refine convexHull_mono (Set.image_mono ?_) hi
  rintro v ⟨j, hj, rfl⟩
  exact Finset.mem_coe.2 (Finset.mem_erase.2 ⟨fun e => hj (hinj e), mem_verts.2 ⟨j, rfl⟩⟩)

theorem step_fan : Step start fan := by
  have hin := in_element proper_tri (c := ![0, 1, 2]) (x := ![1, 1]) (by simp [tri]) ⟨![1 / 3, 1 / 3, 1 / 3], by
    intro i
    fin_cases i <;> norm_num, by norm_num [Fin.sum_univ_succ], by
    ext i
    fin_cases i <;> simp [Fin.sum_univ_three, tri]⟩
  exact Step.cell (g := start) (by simp [start, tri]) hin.1 hin.2 (le_refl 3) (edgesOf_spec _)

theorem valid_fan : Valid fan := step_valid valid_start step_fan

/-- The interface 0 - 3 - 1 separates one element from the others. -/
noncomputable def path : Grid := ⟨fanMesh, InterfaceOps.addInterface (InterfaceOps.addInterface fan.s [0, 3] 1) [1, 3] 1⟩

theorem valid_path : Valid path := by
  have h1 := valid_fan.addInterface (a := 0) (b := 3) (by decide) (by decide +kernel) 1
  exact h1.addInterface (a := 1) (b := 3) (by decide) (by decide +kernel) 1

theorem fan_cells : fanMesh.cells = [![3, 1, 2], ![0, 3, 2], ![0, 1, 3]] := by decide +kernel

/-- A set of elements that no facet outside of the interface leaves. -/
theorem not_same {d : ℕ} {M : Mesh (Fin d → ℝ) d} {I : Finset ℕ → Prop} (P : (Fin (d + 1) → ℕ) → Prop) (h : ∀ c c', P c → Through M I c c' → P c')
    {c c' : Fin (d + 1) → ℕ} (hc : P c) (hc' : ¬ P c') :
    ¬ SameSide M I c c' := by
  intro hs
  refine hc' ?_
  clear hc'
  induction hs with
  | refl => exact hc
  | tail _ h2 ih => exact h _ _ ih h2

theorem path_interface {a b : ℕ} (h : InterfaceOps.isInterfaceBulk path.s [a, b] = true) : interface path.s {a, b} := ⟨a, b, rfl, h⟩

theorem path_sides : ¬ SameSide path.M (interface path.s) ![0, 1, 3] ![3, 1, 2] := by
  refine not_same (fun c => c = ![0, 1, 3]) ?_ rfl (by decide)
  rintro c c' rfl ⟨-, hc', F, hF, h1, h2, hno⟩
  have hc' : c' ∈ fanMesh.cells := hc'
  rw [fan_cells] at hc'
  have key : ∀ c' ∈ ([![3, 1, 2], ![0, 3, 2], ![0, 1, 3]] : List (Fin 3 → ℕ)), ∀ F ∈ Finset.powersetCard 2 (verts ![0, 1, 3]), F ⊆ verts c' →
      c' = ![0, 1, 3] ∨ F = {0, 3} ∨ F = {1, 3} := by decide +kernel
  rcases key c' hc' F (Finset.mem_powersetCard.2 ⟨h1, hF⟩) h2 with h | rfl | rfl
  · exact h
  · exact absurd (path_interface (by decide +kernel)) hno
  · exact absurd (path_interface (by decide +kernel)) hno

/-! ## An interface edge is halved, and the new vertex removed again -/

noncomputable def splitMesh : Mesh (Fin 2 → ℝ) 2 := insertAt fanMesh {0, 3} 4 ((1 / 2 : ℝ) • fanMesh.pos 0 + (1 - (1 / 2 : ℝ)) • fanMesh.pos 3)

/-- What `insertInInterface_` does. -/
def splitState (s : InterfaceOps.State) : InterfaceOps.State := (InterfaceOps.insertInInterface 2 s [0, 3] 4).getD s

noncomputable def split : Grid := ⟨splitMesh, { splitState path.s with edges := edgesOf splitMesh, next := 5 }⟩

theorem step_split : Step path split := by
  refine Step.edge (g := path) (a := 0) (b := 3) (m := 4) (t := 1 / 2) (s' := splitState path.s) (by decide +kernel) (by norm_num) (by norm_num) (by decide +kernel) (edgesOf_spec _) ?_ ?_
  · intro _
    rfl
  · intro h
    exact absurd h (by decide +kernel)

theorem valid_split : Valid split := step_valid valid_path step_split

theorem split_star : InterfaceOps.Star split.s.edges 4 [0, 3, 1, 2] := by
  refine ⟨by decide, fun o => ?_⟩
  rw [mem_edges valid_split.edges valid_split.mesh.conforming.inj]
  have hc : split.M.cells = [![3, 1, 2], ![4, 3, 2], ![0, 4, 2], ![4, 1, 3], ![0, 1, 4]] := by decide +kernel
  rw [hc]
  constructor
  · intro ho
    have : ∀ o ∈ [0, 3, 1, 2], o ≠ 4 ∧ 4 ≠ o ∧ ∃ c ∈ ([![3, 1, 2], ![4, 3, 2], ![0, 4, 2], ![4, 1, 3], ![0, 1, 4]] : List (Fin 3 → ℕ)), 4 ∈ verts c ∧ o ∈ verts c := by
      decide +kernel
    exact this o ho
  · rintro ⟨h1, -, c, hc, -, ho⟩
    have : ∀ c ∈ ([![3, 1, 2], ![4, 3, 2], ![0, 4, 2], ![4, 1, 3], ![0, 1, 4]] : List (Fin 3 → ℕ)), ∀ o ∈ verts c, o = 4 ∨ o ∈ [0, 3, 1, 2] := by decide +kernel
    exact (this c hc o ho).resolve_left h1

noncomputable def joined : Grid :=
  ⟨removeAt splitMesh 4 (fanMesh.cells.filter fun c => {0, 3} ⊆ verts c),
    { (InterfaceOps.removeFromInterface split.s 4 [0, 3, 1, 2]).1 with edges := edgesOf (removeAt splitMesh 4 (fanMesh.cells.filter fun c => {0, 3} ⊆ verts c)) }⟩

theorem step_joined : Step split joined := by
  have hfresh : Fresh fanMesh 4 := fresh_next valid_path (by decide +kernel)
  have hin := inside_edge fanMesh.pos (a := 0) (b := 3) (by decide) (t := (1 / 2 : ℝ)) (by norm_num) (by norm_num)
  refine Step.join (v := 4) (o := 0) (o' := 3) (Join.join (N := fanMesh.cells.filter fun c => {0, 3} ⊆ verts c) (star := [0, 3, 1, 2]) (by decide +kernel) ?_
    (fills_undo valid_path.mesh (by decide) hin hfresh) ?_ ?_ (edgesOf_spec _) split_star ?_ (by decide +kernel)) ⟨1 / 2, by norm_num, by norm_num, ?_⟩
  · unfold Inner
    decide +kernel
  · intro n hn
    have hn := (List.mem_filter.1 hn).1
    have : (fun i => split.M.pos (n i)) = fun i => fanMesh.pos (n i) := by
      funext i
      exact Function.update_of_ne (hfresh n hn i) _ _
    rw [this]
    exact valid_path.mesh.positive n hn
  · exact valid_path.mesh.once.filter _
  · exact Prod.ext rfl (by decide +kernel)
  · simp [split, splitMesh, insertAt, Function.update]

/-- The hypotheses of C203 are met: there are two sides, and two operations can be carried out one after the other. -/
example : Valid path ∧ ¬ SameSide path.M (interface path.s) ![0, 1, 3] ![3, 1, 2] ∧ Relation.ReflTransGen Step path joined ∧
    joined.M.cells = [![3, 1, 2], ![0, 3, 2], ![0, 1, 3]] ∧ InterfaceOps.isInterfaceBulk joined.s [0, 3] = true ∧
    (sides joined.M (interface joined.s)).ncard = (sides path.M (interface path.s)).ncard := by
  have hr : Relation.ReflTransGen Step path joined := (Relation.ReflTransGen.single step_split).tail step_joined
  refine ⟨valid_path, path_sides, hr, by decide +kernel, by decide +kernel, ?_⟩
  exact (C203_number valid_path (Relation.ReflTransGen.mono (fun _ _ h => Act.adapt h) _ _ hr)).2.2

/-- A movement of the vertex inside. -/
noncomputable def movedPos : ℕ → Fin 2 → ℝ := Function.update fanMesh.pos 3 ![1, 1 / 2]

theorem act_moved : Act path ⟨{ path.M with pos := movedPos }, path.s⟩ := by
  refine Act.move ?_ ?_
  · intro c hc
    have hc : c ∈ fanMesh.cells := hc
    rw [fan_cells] at hc
    have p0 : movedPos 0 = ![0, 0] := by simp [movedPos, fanMesh, insertAt, tri, Function.update]
    have p1 : movedPos 1 = ![3, 0] := by simp [movedPos, fanMesh, insertAt, tri, Function.update]
    have p2 : movedPos 2 = ![0, 3] := by simp [movedPos, fanMesh, insertAt, tri, Function.update]
    have p3 : movedPos 3 = ![1, 1 / 2] := by simp [movedPos]
    rw [volume_orient]
    simp only [List.mem_cons, List.not_mem_nil, or_false] at hc
    rcases hc with rfl | rfl | rfl
    · change 0 < orient (movedPos 3) (movedPos 1) (movedPos 2)
      norm_num [orient, p1, p2, p3]
    · change 0 < orient (movedPos 0) (movedPos 3) (movedPos 2)
      norm_num [orient, p0, p2, p3]
    · change 0 < orient (movedPos 0) (movedPos 1) (movedPos 3)
      norm_num [orient, p0, p1, p3]
  · intro v _ hi
    refine Function.update_of_ne ?_ _ _
    rintro rfl
    refine hi ?_
    unfold Inner
    decide +kernel

/-! ## A loop -/

/-- Another vertex inside one of the elements. -/
noncomputable def loopMesh : Mesh (Fin 2 → ℝ) 2 := insertAt fanMesh (Finset.univ.image ![0, 1, 3]) 4 ![4 / 3, 1 / 3]

noncomputable def loopStart : Grid := ⟨loopMesh, ⟨[], fun _ => false, edgesOf loopMesh, 5⟩⟩

theorem inside_loop : ![4 / 3, 1 / 3] ∈ inside fanMesh ![0, 1, 3] := by
  refine ⟨![1 / 3, 1 / 3, 1 / 3], fun i => ?_, by norm_num [Fin.sum_univ_succ], ?_⟩
  · fin_cases i <;> norm_num
  · have p0 : fanMesh.pos 0 = ![0, 0] := by simp [fanMesh, insertAt, tri, Function.update]
    have p1 : fanMesh.pos 1 = ![3, 0] := by simp [fanMesh, insertAt, tri, Function.update]
    have p3 : fanMesh.pos 3 = ![1, 1] := by simp [fanMesh, insertAt]
    rw [Fin.sum_univ_succ, Fin.sum_univ_two]
    change (1 / 3 : ℝ) • fanMesh.pos 0 + ((1 / 3 : ℝ) • fanMesh.pos 1 + (1 / 3 : ℝ) • fanMesh.pos 3) = _
    rw [p0, p1, p3]
    ext i
    fin_cases i <;> norm_num

theorem step_loop : Step fan loopStart := by
  have hc : ![0, 1, 3] ∈ fanMesh.cells := by rw [fan_cells]; simp
  have hin := in_element valid_fan.mesh hc inside_loop
  exact Step.cell (g := fan) hc hin.1 hin.2 (le_refl 4) (edgesOf_spec _)

/-- The interface is the boundary of the element with the vertices 0, 4, 3. -/
noncomputable def loop : Grid :=
  ⟨loopMesh, InterfaceOps.addInterface (InterfaceOps.addInterface (InterfaceOps.addInterface loopStart.s [0, 4] 1) [3, 4] 1) [0, 3] 1⟩

theorem valid_loop : Valid loop := by
  have h := step_valid valid_fan step_loop
  have h1 := h.addInterface (a := 0) (b := 4) (by decide) (by decide +kernel) 1
  have h2 := h1.addInterface (a := 3) (b := 4) (by decide) (by decide +kernel) 1
  exact h2.addInterface (a := 0) (b := 3) (by decide) (by decide +kernel) 1

theorem loop_cells : loopMesh.cells = [![3, 1, 2], ![0, 3, 2], ![4, 1, 3], ![0, 4, 3], ![0, 1, 4]] := by decide +kernel

theorem loop_sides : ¬ SameSide loop.M (interface loop.s) ![0, 4, 3] ![0, 3, 2] := by
  refine not_same (fun c => c = ![0, 4, 3]) ?_ rfl (by decide)
  rintro c c' rfl ⟨-, -, F, hF, h1, -, hno⟩
  have key : ∀ F ∈ Finset.powersetCard 2 (verts ![0, 4, 3]), F = {0, 4} ∨ F = {3, 4} ∨ F = {0, 3} := by decide +kernel
  rcases key F (Finset.mem_powersetCard.2 ⟨h1, hF⟩) with rfl | rfl | rfl
  · exact absurd ⟨0, 4, rfl, by decide +kernel⟩ hno
  · exact absurd ⟨3, 4, rfl, by decide +kernel⟩ hno
  · exact absurd ⟨0, 3, rfl, by decide +kernel⟩ hno

noncomputable def opened : Grid :=
  ⟨removeAt loopMesh 4 (fanMesh.cells.filter fun c => Finset.univ.image ![0, 1, 3] ⊆ verts c),
    { (InterfaceOps.removeFromInterface loop.s 4 [0, 3, 1]).1 with edges := edgesOf (removeAt loopMesh 4 (fanMesh.cells.filter fun c => Finset.univ.image ![0, 1, 3] ⊆ verts c)) }⟩

theorem opened_cells : opened.M.cells = [![3, 1, 2], ![0, 3, 2], ![0, 1, 3]] := by decide +kernel

theorem loop_star : InterfaceOps.Star loop.s.edges 4 [0, 3, 1] := by
  refine ⟨by decide, fun o => ?_⟩
  rw [mem_edges valid_loop.edges valid_loop.mesh.conforming.inj]
  have hc : loop.M.cells = [![3, 1, 2], ![0, 3, 2], ![4, 1, 3], ![0, 4, 3], ![0, 1, 4]] := loop_cells
  rw [hc]
  constructor
  · intro ho
    have : ∀ o ∈ [0, 3, 1], o ≠ 4 ∧ 4 ≠ o ∧ ∃ c ∈ ([![3, 1, 2], ![0, 3, 2], ![4, 1, 3], ![0, 4, 3], ![0, 1, 4]] : List (Fin 3 → ℕ)), 4 ∈ verts c ∧ o ∈ verts c := by
      decide +kernel
    exact this o ho
  · rintro ⟨h1, -, c, hc, h4, ho⟩
    have : ∀ c ∈ ([![3, 1, 2], ![0, 3, 2], ![4, 1, 3], ![0, 4, 3], ![0, 1, 4]] : List (Fin 3 → ℕ)), 4 ∈ verts c → ∀ o ∈ verts c, o = 4 ∨ o ∈ [0, 3, 1] := by decide +kernel
    exact (this c hc h4 o ho).resolve_left h1

theorem join_opened : Join loop 4 0 3 opened := by
  have hfresh : Fresh fanMesh 4 := fresh_next valid_fan (le_refl 4)
  have hc : ![0, 1, 3] ∈ fanMesh.cells := by rw [fan_cells]; simp
  have hel := in_element valid_fan.mesh hc inside_loop
  obtain ⟨μ, hin⟩ := inside_element (valid_fan.mesh.conforming.inj _ hc) hel.1 hel.2
  refine Join.join (N := fanMesh.cells.filter fun c => Finset.univ.image ![0, 1, 3] ⊆ verts c) (star := [0, 3, 1]) (by decide +kernel) ?_
    (fills_undo valid_fan.mesh (by decide +kernel) hin hfresh) ?_ ?_ (edgesOf_spec _) loop_star ?_ (by decide +kernel)
  · unfold Inner
    decide +kernel
  · intro n hn
    have hn := (List.mem_filter.1 hn).1
    have : (fun i => loop.M.pos (n i)) = fun i => fanMesh.pos (n i) := by
      funext i
      exact Function.update_of_ne (hfresh n hn i) _ _
    rw [this]
    exact valid_fan.mesh.positive n hn
  · exact valid_fan.mesh.once.filter _
  · exact Prod.ext rfl (by decide +kernel)

/-- **C204** Refuted: removing a vertex of the interface with exactly two interface elements (in the interior of the domain, the hole being remeshed such that the new interface element is
an edge) keeps elements on different sides apart. Here the interface is the boundary of one element with the vertices 0, 4, 3. After the removal of 4 only the edge between 0 and 3 is left,
and all elements are on the same side. -/
theorem C204_false : ∃ (g g' : Grid) (v o o' : ℕ), Valid g ∧ Join g v o o' g' ∧ Valid g' ∧ domain ℝ g'.M = domain ℝ g.M ∧
    (∃ c ∈ g.M.cells, ∃ c' ∈ g.M.cells, ¬ SameSide g.M (interface g.s) c c') ∧ ∀ c ∈ g'.M.cells, ∀ c' ∈ g'.M.cells, SameSide g'.M (interface g'.s) c c' := by
  have hv' := join_valid valid_loop join_opened
  refine ⟨loop, opened, 4, 0, 3, valid_loop, join_opened, hv', (join_mesh valid_loop join_opened).2, ⟨![0, 4, 3], ?_, ![0, 3, 2], ?_, loop_sides⟩, ?_⟩
  · show _ ∈ loopMesh.cells
    rw [loop_cells]
    simp
  · show _ ∈ loopMesh.cells
    rw [loop_cells]
    simp
  · have no : ∀ F : Finset ℕ, interface opened.s F → F = {0, 3} := by
      rintro F ⟨a, b, rfl, hb⟩
      rw [InterfaceOps.bulk_true hv'.ok] at hb
      obtain ⟨k, hk⟩ := Option.isSome_iff_exists.1 hb
      have hs : opened.s.segs = [([0, 3], 1)] := by decide +kernel
      rw [hs] at hk
      have := Map.mem_of_find hk
      simp only [List.mem_singleton, Prod.mk.injEq] at this
      have h03 : InterfaceOps.key a b = InterfaceOps.key 0 3 := this.1
      rcases InterfaceOps.key_eq_iff.1 h03 with ⟨rfl, rfl⟩ | ⟨rfl, rfl⟩
      · rfl
      · exact Finset.pair_comm _ _
    have mem : ∀ c, c ∈ opened.M.cells ↔ c = ![3, 1, 2] ∨ c = ![0, 3, 2] ∨ c = ![0, 1, 3] := by
      intro c
      rw [opened_cells]
      simp
    have h1 : Through opened.M (interface opened.s) ![3, 1, 2] ![0, 3, 2] :=
      ⟨(mem _).2 (by simp), (mem _).2 (by simp), {2, 3}, by decide, by decide, by decide, fun h => absurd (no _ h) (by decide)⟩
    have h2 : Through opened.M (interface opened.s) ![3, 1, 2] ![0, 1, 3] :=
      ⟨(mem _).2 (by simp), (mem _).2 (by simp), {1, 3}, by decide, by decide, by decide, fun h => absurd (no _ h) (by decide)⟩
    have all : ∀ c ∈ opened.M.cells, SameSide opened.M (interface opened.s) ![3, 1, 2] c := by
      intro c hc
      rcases (mem c).1 hc with rfl | rfl | rfl
      · exact Relation.ReflTransGen.refl
      · exact Relation.ReflTransGen.single h1
      · exact Relation.ReflTransGen.single h2
    intro c hc c' hc'
    exact (all c hc).symm.trans (all c' hc')

/-- For C202: two meshes of the same domain with the same interface, one with two elements more. -/
example : Proper ℝ path.M ∧ Proper ℝ split.M ∧ Facets path.M (interface path.s) ∧ Facets split.M (interface split.s) ∧ domain ℝ split.M = domain ℝ path.M ∧
    interfaceSet split.M (interface split.s) = interfaceSet path.M (interface path.s) ∧ path.M.cells.length = 3 ∧ split.M.cells.length = 5 ∧
    ¬ SameSide path.M (interface path.s) ![0, 1, 3] ![3, 1, 2] :=
  ⟨valid_path.mesh, valid_split.mesh, facets_of valid_path, facets_of valid_split, (step_mesh valid_path step_split).2, step_interface valid_path step_split, by decide +kernel,
    by decide +kernel, path_sides⟩

end Verif.Sides
