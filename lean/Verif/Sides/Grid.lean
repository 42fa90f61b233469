import Verif.Sides.Props
import Verif.InterfaceOps.History

/-!
# Mesh and interface together (2D)

The state of the grid of `Refine` (elements and positions) together with that of `InterfaceOps` (interface segments, flags, edges). What `InterfaceOps` assumes about the edges
of the host grid after an operation is derived here from what `Refine` says about the elements.
-/

namespace Verif.Sides

open Finset Verif.Refine Verif.MoveGeo

/-- The grid of dimension 2: the triangulation `hostgrid_` and what concerns the interface (mmesh.hh:1795-1815). -/
structure Grid where
  M : Mesh (Fin 2 → ℝ) 2
  s : InterfaceOps.State

/-- The edges are those of the elements. -/
def EdgesOf (M : Mesh (Fin 2 → ℝ) 2) (E : List (List ℕ)) : Prop := ∀ e, e ∈ E ↔ ∃ c ∈ M.cells, ∃ i j, i ≠ j ∧ e = InterfaceOps.key (c i) (c j)

/-- The facets for which `isInterface` is true. -/
def interface (s : InterfaceOps.State) (F : Finset ℕ) : Prop := ∃ a b, F = {a, b} ∧ InterfaceOps.isInterfaceBulk s [a, b] = true

/-- `v` lies on the straight line between `a` and `b`, not at its ends. -/
def Straight (pos : ℕ → Fin 2 → ℝ) (v a b : ℕ) : Prop := ∃ t : ℝ, 0 < t ∧ t < 1 ∧ pos v = t • pos a + (1 - t) • pos b

/-- Removal of a vertex `v` of the interface with exactly two interface elements, to `o` and `o'` (`removeFromInterface_`, mmesh.hh:1586-1637): the interface as in
`InterfaceOps.removeFromInterface`, the elements as in `Refine.removeAt`; the new interface element is an edge of the elements that fill the hole (cgal/triangulationwrapper.hh:63-125,
C96). Beyond `Fills`, CGAL gives the new elements counter-clockwise and none of them twice. -/
inductive Join (g : Grid) (v o o' : ℕ) : Grid → Prop
  | join {N E' star s'} : g.s.flag v = true → Inner g.M v → Fills ℝ g.M v N → (∀ n ∈ N, 0 < signedVolume fun i => g.M.pos (n i)) →
      (N.Pairwise fun n n' => Set.range n ≠ Set.range n') → EdgesOf (removeAt g.M v N) E' → InterfaceOps.Star g.s.edges v star →
      InterfaceOps.removeFromInterface g.s v star = (s', some (o, o')) → InterfaceOps.key o o' ∈ E' → Join g v o o' ⟨removeAt g.M v N, { s' with edges := E' }⟩

/-- One insertion or removal in `adapt_` (mmesh.hh:1226-1337), on the elements as in `Refine.Step` and `Refine.removeAt` and on the interface as in `InterfaceOps.Insert` and
`InterfaceOps.Remove`. The recorded `isInterface` of a request is that of the edge when the request is carried out, because nothing is added to the interface in between (otherwise see
C111). Dropped requests change nothing and are left out. Vertices of the interface are removed if they have exactly two interface elements that form a straight line (otherwise see
C204). Points are inserted in the interior of elements. -/
inductive Step (g : Grid) : Grid → Prop
  | edge {a b m s' E'} {t : ℝ} : InterfaceOps.key a b ∈ g.s.edges → 0 < t → t < 1 → g.s.next ≤ m →
      EdgesOf (insertAt g.M {a, b} m (t • g.M.pos a + (1 - t) • g.M.pos b)) E' →
      (InterfaceOps.isInterfaceBulk g.s [a, b] = true → InterfaceOps.insertInInterface 2 g.s [a, b] m = some s') →
      (InterfaceOps.isInterfaceBulk g.s [a, b] = false → s' = g.s) →
      Step g ⟨insertAt g.M {a, b} m (t • g.M.pos a + (1 - t) • g.M.pos b), { s' with edges := E', next := m + 1 }⟩
  | cell {c m x E'} : c ∈ g.M.cells → x ∈ hull ℝ g.M c → (∀ i, x ∉ convexHull ℝ (g.M.pos '' (c '' {i}ᶜ))) → g.s.next ≤ m →
      EdgesOf (insertAt g.M (Finset.univ.image c) m x) E' →
      Step g ⟨insertAt g.M (Finset.univ.image c) m x, { g.s with edges := E', next := m + 1 }⟩
  | remove {v N E'} : g.s.flag v = false → Inner g.M v → Fills ℝ g.M v N → (∀ n ∈ N, 0 < signedVolume fun i => g.M.pos (n i)) →
      (N.Pairwise fun n n' => Set.range n ≠ Set.range n') → EdgesOf (removeAt g.M v N) E' → Step g ⟨removeAt g.M v N, { g.s with edges := E' }⟩
  | join {v o o' g'} : Join g v o o' g' → Straight g.M.pos v o o' → Step g g'

/-- What holds of a grid: a conforming mesh of positively oriented elements, whose edges are the edges of the grid, and interface elements that are edges (`InterfaceOps.Ok`). -/
structure Valid (g : Grid) : Prop where
  mesh : Proper ℝ g.M
  edges : EdgesOf g.M g.s.edges
  ok : InterfaceOps.Ok g.s

/-! ## What happens to the edges -/

theorem mem_edges {M : Mesh (Fin 2 → ℝ) 2} {E : List (List ℕ)} (hE : EdgesOf M E) (hinj : ∀ c ∈ M.cells, Function.Injective c) {a b : ℕ} :
    InterfaceOps.key a b ∈ E ↔ a ≠ b ∧ ∃ c ∈ M.cells, a ∈ verts c ∧ b ∈ verts c := by
  rw [hE]
  constructor
  · rintro ⟨c, hc, i, j, hij, h⟩
    have hne : c i ≠ c j := fun e => hij (hinj c hc e)
    rcases InterfaceOps.key_eq_iff.1 h with ⟨rfl, rfl⟩ | ⟨rfl, rfl⟩
    · exact ⟨hne, c, hc, mem_verts.2 ⟨i, rfl⟩, mem_verts.2 ⟨j, rfl⟩⟩
    · exact ⟨hne.symm, c, hc, mem_verts.2 ⟨j, rfl⟩, mem_verts.2 ⟨i, rfl⟩⟩
  · rintro ⟨hab, c, hc, ha, hb⟩
    obtain ⟨i, rfl⟩ := mem_verts.1 ha
    obtain ⟨j, rfl⟩ := mem_verts.1 hb
    exact ⟨c, hc, i, j, fun e => hab (by rw [e]), rfl⟩

theorem exists_key {M : Mesh (Fin 2 → ℝ) 2} {E : List (List ℕ)} (hE : EdgesOf M E) {e : List ℕ} (he : e ∈ E) : ∃ a b, e = InterfaceOps.key a b := by
  obtain ⟨c, -, i, j, -, h⟩ := (hE e).1 he
  exact ⟨_, _, h⟩

theorem vertex_edges {M : Mesh (Fin 2 → ℝ) 2} {E : List (List ℕ)} (hE : EdgesOf M E) (hinj : ∀ c ∈ M.cells, Function.Injective c) {c : Fin 3 → ℕ} (hc : c ∈ M.cells) {v : ℕ}
    (hv : v ∈ verts c) : InterfaceOps.IsVertex E v := by
  obtain ⟨i, rfl⟩ := mem_verts.1 hv
  obtain ⟨j, hij⟩ := exists_ne i
  refine ⟨InterfaceOps.key (c i) (c j), (mem_edges hE hinj).2 ⟨fun e => hij (hinj c hc e).symm, c, hc, hv, mem_verts.2 ⟨j, rfl⟩⟩, InterfaceOps.mem_key.2 (Or.inl rfl)⟩

/-- Edges after the insertion of a vertex. -/
theorem edges_insertAt {M : Mesh (Fin 2 → ℝ) 2} (hinj : ∀ c ∈ M.cells, Function.Injective c) {F : Finset ℕ} {m : ℕ} {x : Fin 2 → ℝ} (hm : Fresh M m) (u w : ℕ) :
    (u ≠ w ∧ ∃ c ∈ (insertAt M F m x).cells, u ∈ verts c ∧ w ∈ verts c) ↔
      (u ≠ w ∧ u ≠ m ∧ w ≠ m ∧ ∃ c ∈ M.cells, (F ⊆ verts c → ¬ F ⊆ {u, w}) ∧ u ∈ verts c ∧ w ∈ verts c) ∨
      (u = m ∧ w ≠ m ∧ ∃ c ∈ M.cells, F ⊆ verts c ∧ w ∈ verts c ∧ ¬ F ⊆ {w}) ∨ (w = m ∧ u ≠ m ∧ ∃ c ∈ M.cells, F ⊆ verts c ∧ u ∈ verts c ∧ ¬ F ⊆ {u}) := by
  have hmv : ∀ c ∈ M.cells, m ∉ verts c := fun c hc h => by
    obtain ⟨i, hi⟩ := mem_verts.1 h
    exact hm c hc i hi
  constructor
  · rintro ⟨huw, c', hc', hu, hw⟩
    obtain ⟨c, hc, ⟨hF, rfl⟩ | ⟨hF, i, hi, rfl⟩⟩ := mem_insertAt.1 hc'
    · exact Or.inl ⟨huw, fun e => hmv _ hc (e ▸ hu), fun e => hmv _ hc (e ▸ hw), c', hc, fun h => absurd h hF, hu, hw⟩
    · rw [verts_update (hinj c hc), Finset.mem_insert, Finset.mem_erase] at hu hw
      rcases hu with rfl | ⟨hui, hu⟩ <;> rcases hw with rfl | ⟨hwi, hw⟩
      · exact absurd rfl huw
      · exact Or.inr (Or.inl ⟨rfl, fun e => huw e.symm, c, hc, hF, hw, fun h => hwi (Finset.mem_singleton.1 (h hi)).symm⟩)
      · exact Or.inr (Or.inr ⟨rfl, huw, c, hc, hF, hu, fun h => hui (Finset.mem_singleton.1 (h hi)).symm⟩)
      · refine Or.inl ⟨huw, fun e => hmv _ hc (e ▸ hu), fun e => hmv _ hc (e ▸ hw), c, hc, fun _ h => ?_, hu, hw⟩
        have := h hi
        rw [Finset.mem_insert, Finset.mem_singleton] at this
        rcases this with e | e
        · exact hui e.symm
        · exact hwi e.symm
  · have child : ∀ c ∈ M.cells, F ⊆ verts c → ∀ f ∈ F, ∃ c' ∈ (insertAt M F m x).cells, ∀ y, y ∈ verts c' ↔ y = m ∨ (y ≠ f ∧ y ∈ verts c) := by
      intro c hc hF f hf
      obtain ⟨i, rfl⟩ := mem_verts.1 (hF hf)
      refine ⟨_, mem_insertAt.2 ⟨c, hc, Or.inr ⟨hF, i, hf, rfl⟩⟩, fun y => ?_⟩
      rw [verts_update (hinj c hc), Finset.mem_insert, Finset.mem_erase]
    rintro (⟨huw, hum, hwm, c, hc, hn, hu, hw⟩ | ⟨rfl, hwm, c, hc, hF, hw, hn⟩ | ⟨rfl, hum, c, hc, hF, hu, hn⟩)
    · refine ⟨huw, ?_⟩
      by_cases hF : F ⊆ verts c
      · obtain ⟨f, hf, hfn⟩ := Finset.not_subset.1 (hn hF)
        rw [Finset.mem_insert, Finset.mem_singleton, not_or] at hfn
        obtain ⟨c', hc', hv⟩ := child c hc hF f hf
        exact ⟨c', hc', (hv u).2 (Or.inr ⟨fun e => hfn.1 e.symm, hu⟩), (hv w).2 (Or.inr ⟨fun e => hfn.2 e.symm, hw⟩)⟩
      · exact ⟨c, mem_insertAt.2 ⟨c, hc, Or.inl ⟨hF, rfl⟩⟩, hu, hw⟩
    · obtain ⟨f, hf, hfn⟩ := Finset.not_subset.1 hn
      rw [Finset.mem_singleton] at hfn
      obtain ⟨c', hc', hv⟩ := child c hc hF f hf
      exact ⟨fun e => hwm e.symm, c', hc', (hv _).2 (Or.inl rfl), (hv w).2 (Or.inr ⟨fun e => hfn e.symm, hw⟩)⟩
    · obtain ⟨f, hf, hfn⟩ := Finset.not_subset.1 hn
      rw [Finset.mem_singleton] at hfn
      obtain ⟨c', hc', hv⟩ := child c hc hF f hf
      exact ⟨hum, c', hc', (hv u).2 (Or.inr ⟨fun e => hfn e.symm, hu⟩), (hv _).2 (Or.inl rfl)⟩

section
variable {M : Mesh (Fin 2 → ℝ) 2} (hinj : ∀ c ∈ M.cells, Function.Injective c) {E E' : List (List ℕ)} (hE : EdgesOf M E)
include hinj hE

theorem split_contract {a b m : ℕ} {x : Fin 2 → ℝ} (hm : Fresh M m) (hinj' : ∀ c ∈ (insertAt M {a, b} m x).cells, Function.Injective c)
    (hE' : EdgesOf (insertAt M {a, b} m x) E') (hab : InterfaceOps.key a b ∈ E) : InterfaceOps.SplitEdge E a b m E' := by
  classical
  obtain ⟨hne, c0, hc0, ha, hb⟩ := (mem_edges hE hinj).1 hab
  have hmv : ∀ c ∈ M.cells, m ∉ verts c := fun c hc h => by
    obtain ⟨i, hi⟩ := mem_verts.1 h
    exact hm c hc i hi
  have ham : a ≠ m := fun e => hmv c0 hc0 (e ▸ ha)
  have hbm : b ≠ m := fun e => hmv c0 hc0 (e ▸ hb)
  have hsub : ∀ c : Fin 3 → ℕ, ({a, b} : Finset ℕ) ⊆ verts c ↔ a ∈ verts c ∧ b ∈ verts c := fun c => by
    rw [Finset.insert_subset_iff, Finset.singleton_subset_iff]
  have hno : ∀ w, ¬ ({a, b} : Finset ℕ) ⊆ {w} := by
    intro w h
    have h1 : a = w := by simpa using h (Finset.mem_insert_self _ _)
    have h2 : b = w := by simpa using h (Finset.mem_insert_of_mem (Finset.mem_singleton_self _))
    exact hne (h1.trans h2.symm)
  refine ⟨hab, (M.cells.filter fun c => decide (a ∈ verts c ∧ b ∈ verts c)).flatMap (fun c => (verts c).toList), ?_, ?_⟩
  · intro v hv
    obtain ⟨c, hc, hvc⟩ := List.mem_flatMap.1 hv
    exact vertex_edges hE hinj (List.mem_filter.1 hc).1 (by simpa using hvc)
  · have hopp : ∀ v, v ∈ (M.cells.filter fun c => decide (a ∈ verts c ∧ b ∈ verts c)).flatMap (fun c => (verts c).toList) ↔
        ∃ c ∈ M.cells, ({a, b} : Finset ℕ) ⊆ verts c ∧ v ∈ verts c := by
      intro v
      simp only [List.mem_flatMap, List.mem_filter, decide_eq_true_eq, Finset.mem_toList, hsub, and_assoc]
    intro e
    constructor
    · intro he
      obtain ⟨u, w, rfl⟩ := exists_key hE' he
      rcases (edges_insertAt hinj hm u w).1 ((mem_edges hE' hinj').1 he) with ⟨huw, -, -, c, hc, hn, hu, hw⟩ | ⟨rfl, hwm, c, hc, hF, hw, -⟩ | ⟨rfl, hum, c, hc, hF, hu, -⟩
      · refine Or.inl ⟨(mem_edges hE hinj).2 ⟨huw, c, hc, hu, hw⟩, fun e => ?_⟩
        have hF : ({a, b} : Finset ℕ) = {u, w} := by
          rcases InterfaceOps.key_eq_iff.1 e with ⟨rfl, rfl⟩ | ⟨rfl, rfl⟩
          · rfl
          · exact Finset.pair_comm _ _
        refine hn ?_ (hF ▸ Finset.Subset.refl _)
        rw [hF]
        exact Finset.insert_subset hu (Finset.singleton_subset_iff.2 hw)
      · exact Or.inr (Or.inr (Or.inr ⟨w, (hopp w).2 ⟨c, hc, hF, hw⟩, rfl⟩))
      · exact Or.inr (Or.inr (Or.inr ⟨u, (hopp u).2 ⟨c, hc, hF, hu⟩, InterfaceOps.key_comm _ _⟩))
    · have new : ∀ c ∈ M.cells, ({a, b} : Finset ℕ) ⊆ verts c → ∀ w ∈ verts c, InterfaceOps.key m w ∈ E' := by
        intro c hc hF w hw
        exact (mem_edges hE' hinj').2 ((edges_insertAt hinj hm m w).2 (Or.inr (Or.inl ⟨rfl, fun e => hmv c hc (e ▸ hw), c, hc, hF, hw, hno w⟩)))
      rintro (⟨he, hne'⟩ | rfl | rfl | ⟨w, hw, rfl⟩)
      · obtain ⟨u, w, rfl⟩ := exists_key hE he
        obtain ⟨huw, c, hc, hu, hw⟩ := (mem_edges hE hinj).1 he
        refine (mem_edges hE' hinj').2 ((edges_insertAt hinj hm u w).2 (Or.inl ⟨huw, fun e => hmv c hc (e ▸ hu), fun e => hmv c hc (e ▸ hw), c, hc, fun _ hs => hne' ?_, hu, hw⟩))
        have h1 : a = u ∨ a = w := by simpa using hs (Finset.mem_insert_self _ _)
        have h2 : b = u ∨ b = w := by simpa using hs (Finset.mem_insert_of_mem (Finset.mem_singleton_self _))
        refine InterfaceOps.key_eq_iff.2 ?_
        rcases h1 with rfl | rfl <;> rcases h2 with rfl | rfl
        · exact absurd rfl hne
        · exact Or.inl ⟨rfl, rfl⟩
        · exact Or.inr ⟨rfl, rfl⟩
        · exact absurd rfl hne
      · exact new c0 hc0 ((hsub c0).2 ⟨ha, hb⟩) a ha
      · exact new c0 hc0 ((hsub c0).2 ⟨ha, hb⟩) b hb
      · obtain ⟨c, hc, hF, hw⟩ := (hopp w).1 hw
        exact new c hc hF w hw

theorem add_contract {c : Fin 3 → ℕ} (hc : c ∈ M.cells) {m : ℕ} {x : Fin 2 → ℝ} (hm : Fresh M m) (hinj' : ∀ c' ∈ (insertAt M (verts c) m x).cells, Function.Injective c')
    (hE' : EdgesOf (insertAt M (verts c) m x) E') : InterfaceOps.AddVertex E m E' := by
  classical
  have hmv : ∀ c ∈ M.cells, m ∉ verts c := fun c hc h => by
    obtain ⟨i, hi⟩ := mem_verts.1 h
    exact hm c hc i hi
  have hsmall : ∀ F : Finset ℕ, F.card ≤ 2 → ¬ verts c ⊆ F := by
    intro F hF h
    have := Finset.card_le_card h
    rw [card_verts (hinj c hc)] at this
    omega
  refine ⟨(verts c).toList, fun v hv => vertex_edges hE hinj hc (by simpa using hv), fun e => ⟨fun he => ?_, ?_⟩⟩
  · obtain ⟨u, w, rfl⟩ := exists_key hE' he
    have same : ∀ c' ∈ M.cells, verts c ⊆ verts c' → verts c' = verts c := fun c' hc' h =>
      (Finset.eq_of_subset_of_card_le h (by rw [card_verts (hinj c hc), card_verts (hinj c' hc')])).symm
    rcases (edges_insertAt hinj hm u w).1 ((mem_edges hE' hinj').1 he) with ⟨huw, -, -, c', hc', -, hu, hw⟩ | ⟨rfl, hwm, c', hc', hF, hw, -⟩ | ⟨rfl, hum, c', hc', hF, hu, -⟩
    · exact Or.inl ((mem_edges hE hinj).2 ⟨huw, c', hc', hu, hw⟩)
    · exact Or.inr ⟨w, by rw [same c' hc' hF] at hw; simpa using hw, rfl⟩
    · exact Or.inr ⟨u, by rw [same c' hc' hF] at hu; simpa using hu, InterfaceOps.key_comm _ _⟩
  · rintro (he | ⟨w, hw, rfl⟩)
    · obtain ⟨u, w, rfl⟩ := exists_key hE he
      obtain ⟨huw, c', hc', hu, hw⟩ := (mem_edges hE hinj).1 he
      exact (mem_edges hE' hinj').2 ((edges_insertAt hinj hm u w).2 (Or.inl ⟨huw, fun e => hmv c' hc' (e ▸ hu), fun e => hmv c' hc' (e ▸ hw), c', hc',
        fun _ => hsmall _ Finset.card_le_two, hu, hw⟩))
    · have hw : w ∈ verts c := by simpa using hw
      exact (mem_edges hE' hinj').2 ((edges_insertAt hinj hm m w).2 (Or.inr (Or.inl ⟨rfl, fun e => hmv c hc (e ▸ hw), c, hc, Finset.Subset.refl _, hw,
        hsmall _ (by simp)⟩)))

theorem remove_contract {v : ℕ} {N : List (Fin 3 → ℕ)} (hN : Fills ℝ M v N) (hv : Inner M v) (hinj' : ∀ c' ∈ (removeAt M v N).cells, Function.Injective c')
    (hE' : EdgesOf (removeAt M v N) E') : InterfaceOps.RemoveVertex E v E' := by
  constructor
  · intro e he hve
    obtain ⟨u, w, rfl⟩ := exists_key hE he
    rw [InterfaceOps.mem_key, not_or] at hve
    obtain ⟨huw, c, hc, hu, hw⟩ := (mem_edges hE hinj).1 he
    refine (mem_edges hE' hinj').2 ⟨huw, ?_⟩
    by_cases hvc : v ∈ verts c
    · obtain ⟨n, hn, hsub⟩ := hN.facets hv c hc (mem_verts.1 hvc)
      exact ⟨n, mem_removeAt.2 (Or.inr hn), hsub (Finset.mem_sdiff.2 ⟨hu, by simpa using fun e => hve.1 e.symm⟩),
        hsub (Finset.mem_sdiff.2 ⟨hw, by simpa using fun e => hve.2 e.symm⟩)⟩
    · exact ⟨c, mem_removeAt.2 (Or.inl ⟨hc, hvc⟩), hu, hw⟩
  · intro e he
    obtain ⟨u, w, rfl⟩ := exists_key hE' he
    obtain ⟨huw, c, hc, hu, hw⟩ := (mem_edges hE' hinj').1 he
    rcases mem_removeAt.1 hc with ⟨hc, hvc⟩ | hn
    · refine ⟨fun h => ?_, Or.inl ((mem_edges hE hinj).2 ⟨huw, c, hc, hu, hw⟩)⟩
      rcases InterfaceOps.mem_key.1 h with rfl | rfl
      · exact hvc hu
      · exact hvc hw
    · have link : ∀ y ∈ verts c, y ≠ v ∧ InterfaceOps.IsVertex E y := by
        intro y hy
        obtain ⟨i, rfl⟩ := mem_verts.1 hy
        obtain ⟨h1, c', hc', -, h2⟩ := hN.link c hn i
        exact ⟨h1, vertex_edges hE hinj hc' (mem_verts.2 h2)⟩
      refine ⟨fun h => ?_, Or.inr ⟨u, w, huw, rfl, (link u hu).2, (link w hw).2⟩⟩
      rcases InterfaceOps.mem_key.1 h with rfl | rfl
      · exact (link _ hu).1 rfl
      · exact (link _ hw).1 rfl

end

end Verif.Sides
