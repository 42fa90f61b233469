import Verif.Circulate.Model
import Mathlib.Dynamics.PeriodicPts.Lemmas
import Mathlib.Logic.Relation

/-!
# Circulating on a closed oriented surface

Lemmas: if all faces have neighbours and are oriented alike, turning around a vertex runs through a cycle of faces.
-/

namespace Verif.Circulate

open Verif Tri Factory

/-- All neighbours exist and are the other faces with the same edge; no two faces run through an edge in the same direction. -/
structure Surface (T : Tri 2) : Prop where
  inj : ∀ c ∈ T.cells, Function.Injective c
  nbr_iff : ∀ (h : Nat) (i : Fin 3) (c : Fin 3 → Option Nat), T.cells[h]? = some c → ∀ h', T.nbr h i = some h' ↔
    h' ≠ h ∧ ∃ c' i', T.cells[h']? = some c' ∧ facetOf c' i' = facetOf c i
  total : ∀ (h : Nat) (i : Fin 3) (c : Fin 3 → Option Nat), T.cells[h]? = some c → ∃ h', T.nbr h i = some h'
  directed : ∀ (h h' : Nat) (c c' : Fin 3 → Option Nat) (i i' : Fin 3), T.cells[h]? = some c → T.cells[h']? = some c' → c i = c' i' → c (i + 1) = c' (i' + 1) → h = h'

theorem facet3 {α : Type*} [DecidableEq α] (c : Fin 3 → α) (i d : Fin 3) (hd : d ≠ 0) : facetOf c (i + d) = {c i, c (i - d)} := by
  have e : ∀ i d : Fin 3, d ≠ 0 → (Finset.univ : Finset (Fin 3)).erase (i + d) = {i, i - d} := by decide
  unfold facetOf
  rw [e i d hd, Finset.image_insert, Finset.image_singleton]

theorem index_eq {c : Fin 3 → Option Nat} (hc : Function.Injective c) (i : Fin 3) : index c (c i) = some i := by
  unfold index
  have key : ∀ i : Fin 3, i = 0 ∨ i = 1 ∨ i = 2 := by decide
  have hi := key i
  have e : ∀ a b : Fin 3, a ≠ b → c a ≠ c b := fun a b h h' => h (hc h')
  rcases hi with rfl | rfl | rfl
  · simp
  · simp [e 0 1 (by decide)]
  · simp [e 0 2 (by decide), e 1 2 (by decide)]

theorem Surface.injOf {T : Tri 2} (S : Surface T) {h : Nat} {c : Fin 3 → Option Nat} (hc : T.cells[h]? = some c) : Function.Injective c :=
  S.inj c (List.mem_of_getElem? hc)

theorem Surface.directed' {T : Tri 2} (S : Surface T) {h h' : Nat} {c c' : Fin 3 → Option Nat} {i i' d : Fin 3} (hd : d ≠ 0) (hc : T.cells[h]? = some c)
    (hc' : T.cells[h']? = some c') (e : c i = c' i') (e' : c (i + d) = c' (i' + d)) : h = h' := by
  have key : ∀ d : Fin 3, d ≠ 0 → d = 1 ∨ d = 2 := by decide
  have hd' := key d hd
  rcases hd' with rfl | rfl
  · exact S.directed h h' c c' i i' hc hc' e e'
  · have h3 : ∀ i : Fin 3, i + 2 + 1 = i := by decide
    exact S.directed h h' c c' (i + 2) (i' + 2) hc hc' e' (by rw [h3, h3]; exact e)

theorem Surface.turn_eq {T : Tri 2} (S : Surface T) {h : Nat} {c : Fin 3 → Option Nat} (hc : T.cells[h]? = some c) (d i : Fin 3) :
    turn T d (c i) h = T.nbr h (i + d) := by
  unfold turn
  rw [hc]
  simp only
  rw [index_eq (S.injOf hc)]

theorem Surface.after_eq {T : Tri 2} (S : Surface T) {h : Nat} {c : Fin 3 → Option Nat} (hc : T.cells[h]? = some c) (k i : Fin 3) :
    after T (c i) k h = c (i + k) := by
  unfold after
  rw [hc]
  simp only
  rw [index_eq (S.injOf hc)]

/-- The neighbour in direction `d`: it has the common edge in the other direction. -/
theorem Surface.turn_spec {T : Tri 2} (S : Surface T) {h : Nat} {c : Fin 3 → Option Nat} (hc : T.cells[h]? = some c) {d : Fin 3} (hd : d ≠ 0) (i : Fin 3) :
    ∃ h' c' j, turn T d (c i) h = some h' ∧ T.cells[h']? = some c' ∧ h' ≠ h ∧ c' j = c i ∧ c' (j + d) = c (i - d) := by
  obtain ⟨h', hh'⟩ := S.total h (i + d) c hc
  obtain ⟨hne, c', k, hc', hf⟩ := (S.nbr_iff h (i + d) c hc h').1 hh'
  rw [facet3 c i d hd] at hf
  have m1 : c i ∈ facetOf c' k := by rw [hf]; simp
  have m2 : c (i - d) ∈ facetOf c' k := by rw [hf]; simp
  obtain ⟨j, -, hj⟩ := Finset.mem_image.1 m1
  obtain ⟨j', -, hj'⟩ := Finset.mem_image.1 m2
  have k1 : ∀ i d : Fin 3, d ≠ 0 → i - d ≠ i := by decide
  have k2 : ∀ j j' d : Fin 3, d ≠ 0 → j ≠ j' → j' = j + d ∨ j' = j - d := by decide
  have k3 : ∀ d : Fin 3, d ≠ 0 → -d ≠ 0 := by decide
  have hii := k1 i d hd
  have hjj : j ≠ j' := by
    rintro rfl
    exact hii (S.injOf hc (hj'.symm.trans hj))
  have hj2 := k2 j j' d hd hjj
  refine ⟨h', c', j, (S.turn_eq hc d i).trans hh', hc', hne, hj, ?_⟩
  rcases hj2 with rfl | rfl
  · exact hj'
  · exfalso
    apply hne
    refine S.directed' (d := -d) ?_ hc' hc hj ?_
    · exact k3 d hd
    · rw [← sub_eq_add_neg, ← sub_eq_add_neg]; exact hj'

theorem Surface.turn_back {T : Tri 2} (S : Surface T) {h : Nat} {c : Fin 3 → Option Nat} (hc : T.cells[h]? = some c) {d : Fin 3} (hd : d ≠ 0) (i : Fin 3) {h' : Nat}
    (ht : turn T d (c i) h = some h') : turn T (-d) (c i) h' = some h := by
  obtain ⟨h1, c', j, h2, hc', hne, e1, e2⟩ := S.turn_spec hc hd i
  obtain rfl : h1 = h' := Option.some.inj (h2.symm.trans ht)
  rw [← e1, S.turn_eq hc', S.nbr_iff h1 (j + -d) c' hc' h]
  refine ⟨fun e => hne e.symm, c, i + d, hc, ?_⟩
  have k3 : ∀ d : Fin 3, d ≠ 0 → -d ≠ 0 := by decide
  have hd' := k3 d hd
  rw [facet3 c i d hd, facet3 c' j (-d) hd', sub_neg_eq_add, e1, e2]

/-- The face `h` has the vertex `v`. -/
def At (T : Tri 2) (v : Option Nat) (h : Nat) : Prop := ∃ c, T.cells[h]? = some c ∧ ∃ i, c i = v

theorem Surface.step_at {T : Tri 2} (S : Surface T) {v : Option Nat} {d : Fin 3} (hd : d ≠ 0) {h : Nat} (hh : At T v h) :
    ∃ h', turn T d v h = some h' ∧ At T v h' ∧ turn T (-d) v h' = some h := by
  obtain ⟨c, hc, i, rfl⟩ := hh
  obtain ⟨h', c', j, ht, hc', -, e, -⟩ := S.turn_spec hc hd i
  exact ⟨h', ht, ⟨c', hc', j, e⟩, S.turn_back hc hd i ht⟩

/-- The faces at `v`. -/
abbrev Faces (T : Tri 2) (v : Option Nat) := {h : Nat // At T v h}

theorem at_lt {T : Tri 2} {v : Option Nat} {h : Nat} (hh : At T v h) : h < T.cells.length := by
  obtain ⟨c, hc, -⟩ := hh
  exact (List.getElem?_eq_some_iff.1 hc).1

instance (T : Tri 2) (v : Option Nat) : Finite (Faces T v) :=
  Finite.of_injective (β := Fin T.cells.length) (fun x => ⟨x.1, at_lt x.2⟩) fun x y e => Subtype.ext (Fin.mk.inj_iff.1 e)

/-- One step as a function. -/
noncomputable def Surface.f {T : Tri 2} (S : Surface T) (v : Option Nat) {d : Fin 3} (hd : d ≠ 0) (x : Faces T v) : Faces T v :=
  ⟨(S.step_at hd x.2).choose, (S.step_at hd x.2).choose_spec.2.1⟩

theorem Surface.f_spec {T : Tri 2} (S : Surface T) (v : Option Nat) {d : Fin 3} (hd : d ≠ 0) (x : Faces T v) :
    turn T d v x.1 = some (S.f v hd x).1 ∧ turn T (-d) v (S.f v hd x).1 = some x.1 :=
  ⟨(S.step_at hd x.2).choose_spec.1, (S.step_at hd x.2).choose_spec.2.2⟩

theorem Surface.f_inj {T : Tri 2} (S : Surface T) (v : Option Nat) {d : Fin 3} (hd : d ≠ 0) : Function.Injective (S.f v hd) := by
  intro x y e
  have hx := (S.f_spec v hd x).2
  have hy := (S.f_spec v hd y).2
  rw [e] at hx
  exact Subtype.ext (Option.some.inj (hx.symm.trans hy))

open Function in
theorem Surface.circulate_eq {T : Tri 2} (S : Surface T) (v : Option Nat) {d : Fin 3} (hd : d ≠ 0) (x : Faces T v) (m : Nat) :
    ∀ k fuel, k + m + 1 = minimalPeriod (S.f v hd) x → m + 1 ≤ fuel →
      circulate T d v x.1 fuel ((S.f v hd)^[k] x).1 = some ((List.range' k (m + 1)).map fun j => ((S.f v hd)^[j] x).1) := by
  induction m with
  | zero =>
    intro k fuel hk hf
    obtain ⟨fuel, rfl⟩ : ∃ n, fuel = n + 1 := ⟨fuel - 1, by omega⟩
    unfold circulate
    rw [(S.f_spec v hd _).1]
    simp only
    rw [← iterate_succ_apply' (S.f v hd) k x, if_pos]
    · simp
    · rw [show k.succ = minimalPeriod (S.f v hd) x by omega, iterate_minimalPeriod]
  | succ m ih =>
    intro k fuel hk hf
    obtain ⟨fuel, rfl⟩ : ∃ n, fuel = n + 1 := ⟨fuel - 1, by omega⟩
    unfold circulate
    rw [(S.f_spec v hd _).1]
    simp only
    rw [← iterate_succ_apply' (S.f v hd) k x, if_neg]
    · rw [ih (k + 1) fuel (by omega) (by omega), List.range'_succ (s := k), List.map_cons]
      rfl
    · intro e
      have h0 : (S.f v hd)^[k + 1] x = (S.f v hd)^[0] x := Subtype.ext e
      have := (iterate_eq_iterate_iff_of_lt_minimalPeriod (f := S.f v hd) (x := x) (m := k + 1) (n := 0) (by omega) (by omega)).1 h0
      omega

/-- Circulating comes back to the start and visits each face once; with a face it visits the two neighbours at the vertex. -/
theorem Surface.around_spec {T : Tri 2} (S : Surface T) {v : Option Nat} {d : Fin 3} (hd : d ≠ 0) {start : Nat} (hs : At T v start) :
    ∃ l, around T d v start = some l ∧ l.Nodup ∧ start ∈ l ∧ (∀ h ∈ l, At T v h) ∧
      ∀ h ∈ l, (∀ h', turn T d v h = some h' → h' ∈ l) ∧ ∀ h', turn T (-d) v h = some h' → h' ∈ l := by
  obtain ⟨x, hx⟩ : ∃ x : Faces T v, x.1 = start := ⟨⟨start, hs⟩, rfl⟩
  subst hx
  have hspec := S.f_spec v hd
  have hper := Function.Injective.mem_periodicPts (S.f_inj v hd) x
  have hpos := Function.minimalPeriod_pos_of_mem_periodicPts hper
  have hcirc := S.circulate_eq v hd x
  generalize S.f v hd = f at *
  obtain ⟨p, hp⟩ : ∃ p, p = Function.minimalPeriod f x := ⟨_, rfl⟩
  rw [← hp] at hcirc hpos
  have hnd : ((List.range' 0 p).map fun j => (f^[j] x).1).Nodup := by
    refine List.Nodup.map_on (fun a ha b hb e => ?_) (List.nodup_range' (step := 1))
    rw [List.mem_range'_1] at ha hb
    exact (Function.iterate_eq_iterate_iff_of_lt_minimalPeriod (f := f) (x := x) (by rw [← hp]; omega) (by rw [← hp]; omega)).1 (Subtype.ext e)
  have hle : p ≤ T.cells.length := by
    have : ((List.range' 0 p).map fun j => (f^[j] x).1) ⊆ List.range T.cells.length := by
      intro a ha
      obtain ⟨j, -, rfl⟩ := List.mem_map.1 ha
      exact List.mem_range.2 (at_lt (f^[j] x).2)
    have := (List.subperm_of_subset hnd this).length_le
    simpa using this
  have hmem : ∀ n, (f^[n] x).1 ∈ (List.range' 0 p).map fun j => (f^[j] x).1 := by
    intro n
    refine List.mem_map.2 ⟨n % p, ?_, ?_⟩
    · rw [List.mem_range'_1]; exact ⟨by omega, by have := Nat.mod_lt n hpos; omega⟩
    · rw [hp, Function.iterate_mod_minimalPeriod_eq]
  refine ⟨(List.range' 0 p).map fun j => (f^[j] x).1, ?_, hnd, hmem 0, ?_, ?_⟩
  · have := hcirc (p - 1) 0 T.cells.length (by omega) (by omega)
    rw [show p - 1 + 1 = p by omega] at this
    exact this
  · intro h hh
    obtain ⟨j, -, rfl⟩ := List.mem_map.1 hh
    exact (f^[j] x).2
  · intro h hh
    obtain ⟨j, -, rfl⟩ := List.mem_map.1 hh
    constructor
    · intro h' e
      rw [(hspec _).1] at e
      rw [← Option.some.inj e, ← Function.iterate_succ_apply' f j x]
      exact hmem (j + 1)
    · intro h' e
      have e2 : f (f^[j + p - 1] x) = f^[j] x := by
        rw [← Function.iterate_succ_apply' f, show (j + p - 1).succ = j + p by omega, hp, Function.iterate_add_minimalPeriod_eq]
      have := (hspec (f^[j + p - 1] x)).2
      rw [e2, e] at this
      rw [Option.some.inj this]
      exact hmem _

/-- Two faces at `v` with a common edge at `v` are neighbours in one of the two directions. -/
theorem Surface.adjacent {T : Tri 2} (S : Surface T) {v : Option Nat} {d : Fin 3} (hd : d ≠ 0) {h h' : Nat} {c c' : Fin 3 → Option Nat} {k k' : Fin 3} (hne : h' ≠ h)
    (hc : T.cells[h]? = some c) (hc' : T.cells[h']? = some c') (hf : facetOf c k = facetOf c' k') (hv : v ∈ facetOf c k) :
    turn T d v h = some h' ∨ turn T (-d) v h = some h' := by
  obtain ⟨i, hi, rfl⟩ := Finset.mem_image.1 hv
  have hki : i ≠ k := (Finset.mem_erase.1 hi).1
  have k2 : ∀ i k d : Fin 3, d ≠ 0 → i ≠ k → k = i + d ∨ k = i + -d := by decide
  have hk := k2 i k d hd hki
  have hn : T.nbr h k = some h' := (S.nbr_iff h k c hc h').2 ⟨hne, c', k', hc', hf.symm⟩
  rw [S.turn_eq hc, S.turn_eq hc]
  rcases hk with rfl | rfl
  · exact Or.inl hn
  · exact Or.inr hn

end Verif.Circulate
