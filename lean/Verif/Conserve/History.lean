import Verif.Conserve.Examples
import Verif.MoveGeo.Ensured
import Mathlib.LinearAlgebra.Pi

/-!
# C196: any number of adaptations and movements
-/

namespace Verif.Conserve

open Refine MeasureTheory

/-! ## Specification -/

/-- What a user can do with the mesh `M` and the values `u` (by element id), any number of times, with or without movements: `adapt(handle)`, and
`moveVertices`/`moveInterface` (mmesh.hh:1407-1430) to positions with positive areas that leave the vertices on the boundary where they are (what
`ensureVertexMovement` and `ensureInterfaceMovement` check, C191). Ids of elements are persistent (C03). -/
inductive History (moves : Prop) (ident : Finset ℕ → ℕ) (M : TMesh) (u : ℕ → ℝ) : TMesh → (ℕ → ℝ) → Prop
  | start : History moves ident M u M u
  | adapt {M1 u1} (x : Exec) (r : ℝ) : History moves ident M u M1 u1 → x.before = M1 → x.ident = ident → x.Runs → x.Requests →
      History moves ident M u x.after (x.transfer ⟨u1, r⟩)
  | move {M1 u1} (pos : ℕ → ℝ × ℝ) : History moves ident M u M1 u1 → moves → (∀ v ∈ vertices M1, ¬ Inner M1 v → pos v = M1.pos v) →
      (∀ c ∈ M1.cells, 0 < Clip.side (pos (c 0)) (pos (c 1)) (pos (c 2))) → History moves ident M u ⟨M1.cells, pos⟩ u1

/-! ## Proofs -/

section
variable {V W : Type*} [AddCommGroup V] [Module ℝ V] [AddCommGroup W] [Module ℝ W]

/-- The mesh in other coordinates. -/
def mapMesh (e : V ≃ₗ[ℝ] W) (M : Mesh V 2) : Mesh W 2 := ⟨M.cells, fun v => e (M.pos v)⟩

theorem hull_map (e : V ≃ₗ[ℝ] W) (M : Mesh V 2) (c : Fin 3 → ℕ) :
    convexHull ℝ (Set.range fun i => (mapMesh e M).pos (c i)) = e '' convexHull ℝ (Set.range fun i => M.pos (c i)) := by
  have := (e : V →ₗ[ℝ] W).image_convexHull (Set.range fun i => M.pos (c i))
  rw [← Set.range_comp] at this
  exact this.symm

theorem conforming_map (e : V ≃ₗ[ℝ] W) {M : Mesh V 2} (h : Conforming ℝ M) : Conforming ℝ (mapMesh e M) := by
  refine ⟨fun c hc => ?_, fun c hc c' hc' => ?_⟩
  · exact (h.nondegenerate c hc).map' (e : V →ₗ[ℝ] W).toAffineMap e.injective
  · rw [hull_map, hull_map, ← Set.image_inter e.injective]
    have h1 := Set.image_mono (f := e) (h.meet c hc c' hc')
    have h2 := (e : V →ₗ[ℝ] W).image_convexHull (M.pos '' (Set.range c ∩ Set.range c'))
    rw [← Set.image_comp] at h2
    exact h1.trans h2.subset

theorem domain_map (e : V ≃ₗ[ℝ] W) (M : Mesh V 2) : domain ℝ (mapMesh e M) = e '' domain ℝ M := by
  ext y
  constructor
  · rintro ⟨c, hc, hy⟩
    rw [hull_map] at hy
    obtain ⟨z, hz, rfl⟩ := hy
    exact ⟨z, ⟨c, hc, hz⟩, rfl⟩
  · rintro ⟨z, ⟨c, hc, hz⟩, rfl⟩
    refine ⟨c, hc, ?_⟩
    rw [hull_map]
    exact ⟨z, hz, rfl⟩

theorem map_symm (e : V ≃ₗ[ℝ] W) (M : Mesh V 2) : mapMesh e.symm (mapMesh e M) = M := by
  unfold mapMesh
  simp

end

/-- Coordinates as functions. -/
noncomputable def coords : (ℝ × ℝ) ≃ₗ[ℝ] (Fin 2 → ℝ) := (LinearEquiv.finTwoArrow ℝ ℝ).symm

theorem positive_map {M : TMesh} (h : ∀ c ∈ M.cells, 0 < Clip.side (M.pos (c 0)) (M.pos (c 1)) (M.pos (c 2))) : MoveGeo.Positive (mapMesh coords M) := by
  intro c hc
  rw [MoveGeo.volume_orient]
  exact h c hc

theorem once_map {M : TMesh} (h : M.cells.Pairwise fun c c' => Finset.univ.image c ≠ Finset.univ.image c') : MoveGeo.Once (mapMesh coords M) := by
  refine List.Pairwise.imp ?_ h
  intro c c' hne heq
  refine hne (Finset.coe_injective ?_)
  simpa using heq

theorem moved {M : TMesh} (h : Proper M) {pos : ℕ → ℝ × ℝ} (hb : ∀ v ∈ vertices M, ¬ Inner M v → pos v = M.pos v)
    (hp : ∀ c ∈ M.cells, 0 < Clip.side (pos (c 0)) (pos (c 1)) (pos (c 2))) :
    Proper ⟨M.cells, pos⟩ ∧ domain ℝ (⟨M.cells, pos⟩ : TMesh) = domain ℝ M := by
  have hM' : mapMesh coords (⟨M.cells, pos⟩ : TMesh) = { mapMesh coords M with pos := fun v => coords (pos v) } := rfl
  obtain ⟨h1, h2⟩ := MoveGeo.result (pos := fun v => coords (pos v)) (conforming_map coords h.conforming) (once_map h.distinct) (positive_map h.ccw)
    (by rw [← hM']; exact positive_map hp) (fun v hv hi => congrArg coords (hb v hv hi))
  rw [← hM'] at h1 h2
  refine ⟨⟨?_, hp, h.distinct⟩, ?_⟩
  · have := conforming_map coords.symm h1
    rwa [map_symm] at this
  · rw [domain_map, domain_map] at h2
    exact coords.injective.image_injective h2

theorem Proper.after {x : Exec} (hr : x.Runs) (hs : x.Sound) : Proper x.after ∧ domain ℝ x.after = domain ℝ x.before := by
  obtain ⟨h, -⟩ := invariant hr hs
  exact ⟨⟨h.conf, h.ccw, h.distinct⟩, h.dom⟩

/-! ## C196 -/

/-- **C196** After any number of adaptations and movements the grid is a proper triangulation of the same domain. -/
theorem C196_mesh {moves : Prop} {ident : Finset ℕ → ℕ} {M M' : TMesh} {u u' : ℕ → ℝ} (hM : Proper M) (h : History moves ident M u M' u') :
    Proper M' ∧ domain ℝ M' = domain ℝ M := by
  induction h with
  | start => exact ⟨hM, rfl⟩
  | adapt x r _ hx _ hr hq ih =>
    subst hx
    obtain ⟨h1, h2⟩ := Proper.after hr ⟨hq, ih.1⟩
    exact ⟨h1, h2.trans ih.2⟩
  | move pos _ _ hb hp ih =>
    obtain ⟨h1, h2⟩ := moved ih.1 hb hp
    exact ⟨h1, h2.trans ih.2⟩

/-- **C196** After any number of adaptations and movements no value has left the range of the values at the start. -/
theorem C196_bounds {moves : Prop} {ident : Finset ℕ → ℕ} {M M' : TMesh} {u u' : ℕ → ℝ} (hM : Proper M) (h : History moves ident M u M' u') {a b : ℝ}
    (hab : ∀ o ∈ M.cells, a ≤ u (ident (Finset.univ.image o)) ∧ u (ident (Finset.univ.image o)) ≤ b) :
    ∀ c ∈ M'.cells, a ≤ u' (ident (Finset.univ.image c)) ∧ u' (ident (Finset.univ.image c)) ≤ b := by
  induction h with
  | start => exact hab
  | adapt x r h hx hi hr hq ih =>
    subst hx hi
    exact fun c hc => C195_bounds hr ⟨hq, (C196_mesh hM h).1⟩ ⟨_, r⟩ ih hc
  | move pos _ _ _ _ ih => exact ih

/-- **C196** After any number of adaptations (without movements) the integral is what it was at the start. -/
theorem C196_conservation {ident : Finset ℕ → ℕ} {M M' : TMesh} {u u' : ℕ → ℝ} (hM : Proper M) (h : History False ident M u M' u') :
    (M'.cells.map fun c => (volume (convexHull ℝ (Set.range fun i => M'.pos (c i)))).toReal * u' (ident (Finset.univ.image c))).sum =
      (M.cells.map fun o => (volume (convexHull ℝ (Set.range fun i => M.pos (o i)))).toReal * u (ident (Finset.univ.image o))).sum := by
  induction h with
  | start => rfl
  | adapt x r h hx hi hr hq ih =>
    subst hx hi
    exact (C195_conservation hr ⟨hq, (C196_mesh hM h).1⟩ ⟨_, r⟩).trans ih
  | move pos _ hf => exact hf.elim

/-! ## Example -/

/-- The vertex starts at `(1/3, 1/3)`. -/
noncomputable def exStart : TMesh := insertAt tri {0, 1, 2} 3 (1 / 3, 1 / 3)

theorem proper_start : Proper exStart := by
  have hin : Inside tri.pos {0, 1, 2} (1 / 3, 1 / 3) (fun v => if v = 0 then (1 / 3 : ℝ) else if v = 1 then 1 / 3 else if v = 2 then 1 / 3 else 0) := by
    refine ⟨⟨?_, ?_, ?_⟩, ?_, ?_⟩
    · intro v
      split_ifs <;> norm_num
    · intro v hv
      simp only [Finset.mem_insert, Finset.mem_singleton, not_or] at hv
      simp [hv.1, hv.2.1, hv.2.2]
    · norm_num
    · intro v hv
      simp only [Finset.mem_insert, Finset.mem_singleton] at hv
      rcases hv with rfl | rfl | rfl <;> norm_num
    · simp [tri]
  have hcells : exStart.cells = exBefore.cells := rfl
  refine ⟨conforming_insertAt hin (fresh_tri le_rfl) conforming_tri.inj (by decide) conforming_tri, ?_, ?_⟩
  · intro c hc
    rw [hcells, cells_before] at hc
    simp only [List.mem_cons, List.not_mem_nil, or_false] at hc
    rcases hc with rfl | rfl | rfl <;> simp [exStart, insertAt, tri, Clip.side, Function.update] <;> norm_num
  · rw [hcells]
    exact proper_before.distinct

/-- The inner vertex is moved from `(1/3, 1/3)` to `(1/4, 1/4)`, then the mesh is adapted as in the example for C195. -/
example (u : ℕ → ℝ) : ∃ u', Proper exStart ∧ History True exIdent exStart u exAfter u' := by
  obtain ⟨x, h1, h2, h3, h4, h5⟩ := exists_exec
  have hm : History True exIdent exStart u exBefore u := by
    refine History.move exBefore.pos .start trivial (fun v hv hi => ?_) proper_before.ccw
    have : v ≠ 3 := by
      rintro rfl
      refine hi ?_
      unfold Refine.Inner
      rw [show exStart.cells = exBefore.cells from rfl, cells_before]
      decide
    simp [exBefore, exStart, insertAt, Function.update_of_ne this]
  refine ⟨x.transfer ⟨u, 0⟩, proper_start, ?_⟩
  rw [← h4]
  exact History.adapt x 0 hm h3 h5 h1 h2.toRequests

end Verif.Conserve
