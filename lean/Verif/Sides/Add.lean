import Verif.Sides.Regions
import Verif.Sides.Examples

/-!
# A facet is added to the interface
-/

namespace Verif.Sides

open Finset Verif.Refine Verif.MoveGeo

variable {d : ℕ}

/-- The interface after the facet `F` was added (`addInterface`, mmesh.hh:374-399). -/
def withFacet (I : Finset ℕ → Prop) (F : Finset ℕ) : Finset ℕ → Prop := fun G => I G ∨ G = F

section
variable {M : Mesh (Fin d → ℝ) d} (hM : Proper ℝ M)
include hM

/-- The vertex opposite to a facet. -/
theorem opposite {F : Finset ℕ} (hF : F.card = d) {e : Fin (d + 1) → ℕ} (he : e ∈ M.cells) (hFe : F ⊆ verts e) : ∃ i, e i ∉ F ∧ verts e \ {e i} = F := by
  have hinj := hM.conforming.inj
  obtain ⟨v, hv, hvF⟩ := Finset.exists_mem_notMem_of_card_lt_card (s := F) (t := verts e) (by rw [card_verts (hinj e he), hF]; omega)
  obtain ⟨i, rfl⟩ := mem_verts.1 hv
  refine ⟨i, hvF, (Finset.eq_of_subset_of_card_le ?_ ?_).symm⟩
  · intro u hu
    exact Finset.mem_sdiff.2 ⟨hFe hu, by simpa using fun h : u = e i => hvF (h ▸ hu)⟩
  · rw [Finset.sdiff_singleton_eq_erase, Finset.card_erase_of_mem hv, card_verts (hinj e he), hF, Nat.add_sub_cancel]

theorem partner {F : Finset ℕ} {c c' : Fin (d + 1) → ℕ} {i j : Fin (d + 1)} (hc : c ∈ M.cells) (hc' : c' ∈ M.cells) (hne : c ≠ c') (h1 : verts c \ {c i} = F)
    (h2 : verts c' \ {c' j} = F) : Partner (c, i) (c', j) := by
  have hinj := hM.conforming.inj
  refine ⟨h1.trans h2.symm, fun h => hne (eq_of_verts hM.once hc hc' ?_)⟩
  refine Finset.eq_of_subset_of_card_le (fun u hu => ?_) (by rw [card_verts (hinj _ hc), card_verts (hinj _ hc')])
  by_cases hu' : u = c i
  · exact hu' ▸ h
  · have : u ∈ verts c' \ {c' j} := h2.symm ▸ h1 ▸ Finset.mem_sdiff.2 ⟨hu, by simpa using hu'⟩
    exact (Finset.mem_sdiff.1 this).1

/-- A facet belongs to at most two elements. -/
theorem two_elements {F : Finset ℕ} (hF : F.card = d) {c₁ c₂ e : Fin (d + 1) → ℕ} (h₁ : c₁ ∈ M.cells) (h₂ : c₂ ∈ M.cells) (he : e ∈ M.cells) (hne : c₁ ≠ c₂)
    (hf₁ : F ⊆ verts c₁) (hf₂ : F ⊆ verts c₂) (hfe : F ⊆ verts e) : e = c₁ ∨ e = c₂ := by
  by_contra hno
  rw [not_or] at hno
  obtain ⟨i, -, hi⟩ := opposite hM hF h₁ hf₁
  obtain ⟨j, -, hj⟩ := opposite hM hF h₂ hf₂
  obtain ⟨k, -, hk⟩ := opposite hM hF he hfe
  have p1 := partner hM h₁ h₂ hne hi hj
  have p2 := partner hM h₁ he (Ne.symm hno.1) hi hk
  have := Partner.unique hM.conforming hM.positive hM.once p1 p2 h₁ h₂ he
  exact hno.2 (congrArg Prod.fst this).symm

variable {I : Finset ℕ → Prop} {F : Finset ℕ}

omit hM in
/-- **C208** Elements on the same side after a facet was added to the interface were on the same side before. -/
theorem C208_finer {x y : Fin (d + 1) → ℕ} (h : SameSide M (withFacet I F) x y) : SameSide M I x y := by
  refine Relation.ReflTransGen.mono ?_ _ _ h
  rintro a b ⟨ha, hb, G, hG, h1, h2, hn⟩
  exact ⟨ha, hb, G, hG, h1, h2, fun h => hn (Or.inl h)⟩

/-- **C208** Elements that were on the same side still are, or each of them is on the side of one of the two elements at the new facet. -/
theorem C208_parts (hF : F.card = d) {c₁ c₂ : Fin (d + 1) → ℕ} (h₁ : c₁ ∈ M.cells) (h₂ : c₂ ∈ M.cells) (hne : c₁ ≠ c₂) (hf₁ : F ⊆ verts c₁) (hf₂ : F ⊆ verts c₂)
    {x y : Fin (d + 1) → ℕ} (h : SameSide M I x y) :
    SameSide M (withFacet I F) x y ∨ (SameSide M (withFacet I F) x c₁ ∧ SameSide M (withFacet I F) y c₂) ∨
      (SameSide M (withFacet I F) x c₂ ∧ SameSide M (withFacet I F) y c₁) := by
  induction h with
  | refl => exact Or.inl Relation.ReflTransGen.refl
  | @tail y z _ hyz ih =>
    obtain ⟨hy, hz, G, hG, g1, g2, hn⟩ := hyz
    by_cases hGF : G = F
    · subst hGF
      rcases two_elements hM hF h₁ h₂ hy hne hf₁ hf₂ g1 with rfl | rfl <;> rcases two_elements hM hF h₁ h₂ hz hne hf₁ hf₂ g2 with rfl | rfl
      · exact ih
      · rcases ih with h | ⟨h, -⟩ | ⟨h, -⟩
        · exact Or.inr (Or.inl ⟨h, Relation.ReflTransGen.refl⟩)
        · exact Or.inr (Or.inl ⟨h, Relation.ReflTransGen.refl⟩)
        · exact Or.inl h
      · rcases ih with h | ⟨h, -⟩ | ⟨h, -⟩
        · exact Or.inr (Or.inr ⟨h, Relation.ReflTransGen.refl⟩)
        · exact Or.inl h
        · exact Or.inr (Or.inr ⟨h, Relation.ReflTransGen.refl⟩)
      · exact ih
    · have ht : Through M (withFacet I F) y z := ⟨hy, hz, G, hG, g1, g2, fun h => h.elim hn hGF⟩
      have hzy : SameSide M (withFacet I F) z y := Relation.ReflTransGen.single ht.symm
      rcases ih with h | ⟨h, h'⟩ | ⟨h, h'⟩
      · exact Or.inl (h.tail ht)
      · exact Or.inr (Or.inl ⟨h, hzy.trans h'⟩)
      · exact Or.inr (Or.inr ⟨h, hzy.trans h'⟩)

omit hM in
theorem class_eq {J : Finset ℕ → Prop} {x y : Fin (d + 1) → ℕ} (h : SameSide M J x y) : {z | SameSide M J x z} = {z | SameSide M J y z} := by
  ext z
  exact ⟨fun hz => h.symm.trans hz, fun hz => h.trans hz⟩

/-- **C208** The sides after the facet between `c₁` and `c₂` was added: those that contain neither of the two are unchanged, and the one that contains both is replaced by the
side of `c₁` and the side of `c₂`. -/
theorem C208_sides (hF : F.card = d) {c₁ c₂ : Fin (d + 1) → ℕ} (h₁ : c₁ ∈ M.cells) (h₂ : c₂ ∈ M.cells) (hne : c₁ ≠ c₂) (hf₁ : F ⊆ verts c₁) (hf₂ : F ⊆ verts c₂)
    (hn : ¬ I F) :
    sides M (withFacet I F) = {A | A ∈ sides M I ∧ c₁ ∉ A ∧ c₂ ∉ A} ∪
      {{z | SameSide M (withFacet I F) c₁ z}, {z | SameSide M (withFacet I F) c₂ z}} := by
  have h12 : SameSide M I c₁ c₂ := Relation.ReflTransGen.single ⟨h₁, h₂, F, hF, hf₁, hf₂, hn⟩
  have parts := fun {x y} => C208_parts (I := I) hM hF h₁ h₂ hne hf₁ hf₂ (x := x) (y := y)
  have keep : ∀ x, ¬ SameSide M I x c₁ → {z | SameSide M (withFacet I F) x z} = {z | SameSide M I x z} := by
    intro x hx
    ext z
    refine ⟨fun h => C208_finer h, fun h => ?_⟩
    rcases parts h with h | ⟨h, -⟩ | ⟨h, -⟩
    · exact h
    · exact absurd (C208_finer h) hx
    · exact absurd ((C208_finer h).trans h12.symm) hx
  apply Set.Subset.antisymm
  · rintro A ⟨x, hx, rfl⟩
    by_cases hs : SameSide M I c₁ x
    · right
      rcases parts hs with h | ⟨-, h⟩ | ⟨h, h'⟩
      · exact Or.inl (class_eq h).symm
      · exact Or.inr (class_eq h)
      · exact Or.inl (class_eq h')
    · left
      have hs' : ¬ SameSide M I x c₁ := fun h => hs h.symm
      refine ⟨⟨x, hx, keep x hs'⟩, fun h => hs' (C208_finer h), fun h => hs' ((C208_finer h).trans h12.symm)⟩
  · rintro A (⟨⟨x, hx, rfl⟩, hA, -⟩ | rfl | rfl)
    · exact ⟨x, hx, (keep x hA).symm⟩
    · exact ⟨c₁, h₁, rfl⟩
    · exact ⟨c₂, h₂, rfl⟩

/-- If one still comes from one of the two elements to the other one, nothing changes. -/
theorem C208_unchanged (hF : F.card = d) {c₁ c₂ : Fin (d + 1) → ℕ} (h₁ : c₁ ∈ M.cells) (h₂ : c₂ ∈ M.cells) (hne : c₁ ≠ c₂) (hf₁ : F ⊆ verts c₁) (hf₂ : F ⊆ verts c₂)
    (h12 : SameSide M (withFacet I F) c₁ c₂) : sides M (withFacet I F) = sides M I := by
  have same : ∀ x y, SameSide M (withFacet I F) x y ↔ SameSide M I x y := by
    intro x y
    refine ⟨C208_finer, fun h => ?_⟩
    rcases C208_parts (I := I) hM hF h₁ h₂ hne hf₁ hf₂ h with h | ⟨h, h'⟩ | ⟨h, h'⟩
    · exact h
    · exact (h.trans h12).trans h'.symm
    · exact (h.trans h12.symm).trans h'.symm
  unfold sides
  simp only [same]

/-- **C208** The number of sides grows by one if the new facet closes the only way between the two elements beside it, and is unchanged otherwise. -/
theorem C208_number (hF : F.card = d) {c₁ c₂ : Fin (d + 1) → ℕ} (h₁ : c₁ ∈ M.cells) (h₂ : c₂ ∈ M.cells) (hne : c₁ ≠ c₂) (hf₁ : F ⊆ verts c₁) (hf₂ : F ⊆ verts c₂)
    (hn : ¬ I F) :
    (SameSide M (withFacet I F) c₁ c₂ → (sides M (withFacet I F)).ncard = (sides M I).ncard) ∧
      (¬ SameSide M (withFacet I F) c₁ c₂ → (sides M (withFacet I F)).ncard = (sides M I).ncard + 1) := by
  refine ⟨fun h => by rw [C208_unchanged hM hF h₁ h₂ hne hf₁ hf₂ h], fun hno => ?_⟩
  have h12 : SameSide M I c₁ c₂ := Relation.ReflTransGen.single ⟨h₁, h₂, F, hF, hf₁, hf₂, hn⟩
  have hold : sides M I = insert {z | SameSide M I c₁ z} {A | A ∈ sides M I ∧ c₁ ∉ A ∧ c₂ ∉ A} := by
    apply Set.Subset.antisymm
    · rintro A ⟨x, hx, rfl⟩
      by_cases hs : SameSide M I x c₁
      · exact Or.inl (class_eq hs)
      · exact Or.inr ⟨⟨x, hx, rfl⟩, hs, fun h => hs (Relation.ReflTransGen.trans h h12.symm)⟩
    · rintro A (rfl | hA)
      · exact ⟨c₁, h₁, rfl⟩
      · exact hA.1
  have hfin : {A | A ∈ sides M I ∧ c₁ ∉ A ∧ c₂ ∉ A}.Finite := (sides_finite M I).subset fun A hA => hA.1
  have n1 : {z | SameSide M I c₁ z} ∉ {A | A ∈ sides M I ∧ c₁ ∉ A ∧ c₂ ∉ A} := fun h => h.2.1 Relation.ReflTransGen.refl
  have m1 : {z | SameSide M (withFacet I F) c₁ z} ∉ insert {z | SameSide M (withFacet I F) c₂ z} {A | A ∈ sides M I ∧ c₁ ∉ A ∧ c₂ ∉ A} := by
    rintro (h | h)
    · have : c₂ ∈ {z | SameSide M (withFacet I F) c₁ z} := h ▸ Relation.ReflTransGen.refl
      exact hno this
    · exact h.2.1 Relation.ReflTransGen.refl
  have m2 : {z | SameSide M (withFacet I F) c₂ z} ∉ {A | A ∈ sides M I ∧ c₁ ∉ A ∧ c₂ ∉ A} := fun h => h.2.2 Relation.ReflTransGen.refl
  rw [C208_sides hM hF h₁ h₂ hne hf₁ hf₂ hn, Set.union_comm, Set.insert_union, Set.singleton_union, Set.ncard_insert_of_notMem m1 (hfin.insert _),
    Set.ncard_insert_of_notMem m2 hfin]
  conv_rhs => rw [hold, Set.ncard_insert_of_notMem n1 hfin]

/-- **C208** A facet on the boundary of the domain separates nothing. -/
theorem C208_boundary (hF : F.card = d) {c : Fin (d + 1) → ℕ} (hc : c ∈ M.cells) (hf : F ⊆ verts c) (hb : ∀ e ∈ M.cells, F ⊆ verts e → e = c) :
    sides M (withFacet I F) = sides M I := by
  have same : ∀ x y, SameSide M (withFacet I F) x y ↔ SameSide M I x y := by
    intro x y
    refine ⟨C208_finer, fun h => ?_⟩
    induction h with
    | refl => exact Relation.ReflTransGen.refl
    | @tail y z _ hyz ih =>
      obtain ⟨hy, hz, G, hG, g1, g2, hn⟩ := hyz
      by_cases hGF : G = F
      · subst hGF
        rw [hb z hz g2, ← hb y hy g1]
        exact ih
      · exact ih.tail ⟨hy, hz, G, hG, g1, g2, fun h => h.elim hn hGF⟩
  unfold sides
  simp only [same]

end

/-! ## `addInterface` of the grid in two dimensions -/

theorem interface_add {s : InterfaceOps.State} (hs : InterfaceOps.Ok s) {a b : ℕ} (k : ℕ) (hs' : InterfaceOps.Ok (InterfaceOps.addInterface s [a, b] k)) :
    interface (InterfaceOps.addInterface s [a, b] k) = withFacet (interface s) {a, b} := by
  funext F
  apply propext
  unfold withFacet interface
  by_cases hb : InterfaceOps.isInterfaceBulk s [a, b] = true
  · have : InterfaceOps.addInterface s [a, b] k = s := by
      unfold InterfaceOps.addInterface
      simp [hb]
    rw [this]
    exact ⟨Or.inl, fun h => h.elim id fun e => ⟨a, b, e, hb⟩⟩
  · have hseg : (InterfaceOps.addInterface s [a, b] k).segs = Map.insert s.segs (InterfaceOps.key a b) k := by
      unfold InterfaceOps.addInterface
      simp [hb, InterfaceOps.key]
    have hnone : Map.find s.segs (InterfaceOps.key a b) = none := by
      rw [InterfaceOps.bulk_true hs] at hb
      simpa using hb
    constructor
    · rintro ⟨u, w, rfl, h⟩
      rw [InterfaceOps.bulk_true hs', hseg, Map.find_insert_new hnone] at h
      by_cases he : InterfaceOps.key u w = InterfaceOps.key a b
      · right
        rcases InterfaceOps.key_eq_iff.1 he with ⟨rfl, rfl⟩ | ⟨rfl, rfl⟩
        · rfl
        · exact Finset.pair_comm _ _
      · left
        rw [if_neg he] at h
        exact ⟨u, w, rfl, by rw [InterfaceOps.bulk_true hs]; exact h⟩
    · rintro (⟨u, w, rfl, h⟩ | rfl)
      · refine ⟨u, w, rfl, ?_⟩
        rw [InterfaceOps.bulk_true hs] at h
        rw [InterfaceOps.bulk_true hs', hseg, Map.find_insert_new hnone]
        split
        · rfl
        · exact h
      · refine ⟨a, b, rfl, ?_⟩
        rw [InterfaceOps.bulk_true hs', hseg, Map.find_insert_new hnone, if_pos rfl]
        rfl

/-- **C208** `addInterface` of an edge of the grid: no two sides become one, and the number of sides stays or grows by one. It grows by one exactly if the edge was not in the
interface, there are elements on both sides of it, and after the call one does not come from one of them to the other one. -/
theorem C208_addInterface {g : Grid} (h : Valid g) {a b : ℕ} (hab : a ≠ b) (he : InterfaceOps.key a b ∈ g.s.edges) (k : ℕ) :
    (∀ x y, SameSide g.M (interface (InterfaceOps.addInterface g.s [a, b] k)) x y → SameSide g.M (interface g.s) x y) ∧
    (sides g.M (interface (InterfaceOps.addInterface g.s [a, b] k))).ncard = (sides g.M (interface g.s)).ncard +
      (open Classical in if InterfaceOps.isInterfaceBulk g.s [a, b] = false ∧ ∃ c₁ ∈ g.M.cells, ∃ c₂ ∈ g.M.cells, {a, b} ⊆ verts c₁ ∧ {a, b} ⊆ verts c₂ ∧
        ¬ SameSide g.M (interface (InterfaceOps.addInterface g.s [a, b] k)) c₁ c₂ then 1 else 0) := by
  have e := interface_add h.ok k (h.addInterface hab he k).ok
  have hF : ({a, b} : Finset ℕ).card = 2 := Finset.card_pair hab
  rw [e]
  refine ⟨fun x y hs => C208_finer hs, ?_⟩
  by_cases hb : InterfaceOps.isInterfaceBulk g.s [a, b] = true
  · have : withFacet (interface g.s) {a, b} = interface g.s := by
      funext G
      exact propext ⟨fun hG => hG.elim id fun hG => ⟨a, b, hG, hb⟩, Or.inl⟩
    rw [this, if_neg (by simp [hb])]
    rfl
  · have hn : ¬ interface g.s {a, b} := by
      rintro ⟨u, w, huw, hi⟩
      refine hb ?_
      rw [InterfaceOps.bulk_true h.ok] at hi ⊢
      rwa [show InterfaceOps.key a b = InterfaceOps.key u w from ?_]
      rw [InterfaceOps.key_eq_iff]
      have h1 : a ∈ ({u, w} : Finset ℕ) := huw ▸ (by simp)
      have h2 : b ∈ ({u, w} : Finset ℕ) := huw ▸ (by simp)
      simp only [Finset.mem_insert, Finset.mem_singleton] at h1 h2
      rcases h1 with rfl | rfl <;> rcases h2 with rfl | rfl <;> simp_all
    obtain ⟨-, c₁, h₁, hu, hw⟩ := (mem_edges h.edges h.mesh.conforming.inj).1 he
    have hf₁ : ({a, b} : Finset ℕ) ⊆ verts c₁ := by
      intro v hv
      simp only [Finset.mem_insert, Finset.mem_singleton] at hv
      rcases hv with rfl | rfl <;> assumption
    by_cases h2 : ∃ c₂ ∈ g.M.cells, {a, b} ⊆ verts c₂ ∧ c₁ ≠ c₂
    · obtain ⟨c₂, h₂, hf₂, hne⟩ := h2
      obtain ⟨n1, n2⟩ := C208_number h.mesh hF h₁ h₂ hne hf₁ hf₂ hn
      by_cases hs : SameSide g.M (withFacet (interface g.s) {a, b}) c₁ c₂
      · rw [n1 hs, if_neg, add_zero]
        rintro ⟨-, x, hx, y, hy, fx, fy, hxy⟩
        apply hxy
        rcases two_elements h.mesh hF h₁ h₂ hx hne hf₁ hf₂ fx with rfl | rfl <;> rcases two_elements h.mesh hF h₁ h₂ hy hne hf₁ hf₂ fy with rfl | rfl
        · exact Relation.ReflTransGen.refl
        · exact hs
        · exact hs.symm
        · exact Relation.ReflTransGen.refl
      · rw [n2 hs, if_pos ⟨by simpa using hb, c₁, h₁, c₂, h₂, hf₁, hf₂, hs⟩]
    · have hone : ∀ e ∈ g.M.cells, {a, b} ⊆ verts e → e = c₁ := by
        intro e he' hfe
        by_contra hne
        exact h2 ⟨e, he', hfe, fun h => hne h.symm⟩
      rw [C208_boundary h.mesh hF h₁ hf₁ hone, if_neg]
      · rfl
      · rintro ⟨-, x, hx, y, hy, fx, fy, hxy⟩
        rw [hone x hx fx, hone y hy fy] at hxy
        exact hxy Relation.ReflTransGen.refl

/-- What a program does with the grid: adaptations, movements and `addInterface` (mmesh.hh:374-399) for an edge of the grid. -/
inductive Any (g : Grid) : Grid → Prop
  | act {g'} : Act g g' → Any g g'
  | add {a b k} : a ≠ b → InterfaceOps.key a b ∈ g.s.edges → Any g ⟨g.M, InterfaceOps.addInterface g.s [a, b] k⟩

/-- **C208** Whatever adaptations, movements and calls of `addInterface` there are, in any order: the number of sides never decreases. -/
theorem C208_history {g g' : Grid} (h : Valid g) (hr : Relation.ReflTransGen Any g g') :
    Valid g' ∧ domain ℝ g'.M = domain ℝ g.M ∧ (sides g.M (interface g.s)).ncard ≤ (sides g'.M (interface g'.s)).ncard := by
  induction hr with
  | refl => exact ⟨h, rfl, le_rfl⟩
  | tail _ hs ih =>
    obtain ⟨h1, h2, h3⟩ := ih
    cases hs with
    | act ha =>
      obtain ⟨g1, g2, g3⟩ := C203_number h1 (Relation.ReflTransGen.single ha)
      exact ⟨g1, g2.trans h2, g3 ▸ h3⟩
    | @add a b k hab he =>
      refine ⟨h1.addInterface hab he k, h2, h3.trans ?_⟩
      rw [(C208_addInterface h1 hab he k).2]
      exact Nat.le_add_right _ _

/-- The second facet of the interface 0 - 3 - 1 closes the way: there is one side more. -/
example : (sides path.M (interface path.s)).ncard = (sides fanMesh (interface (InterfaceOps.addInterface fan.s [0, 3] 1))).ncard + 1 := by
  have hv := valid_fan.addInterface (a := 0) (b := 3) (by decide) (by decide +kernel) 1
  have := (C208_addInterface hv (a := 1) (b := 3) (by decide) (by decide +kernel) 1).2
  rw [if_pos] at this
  · exact this
  · refine ⟨by decide +kernel, ![0, 1, 3], ?_, ![3, 1, 2], ?_, by decide, by decide, path_sides⟩
    · show _ ∈ fanMesh.cells
      rw [fan_cells]; simp
    · show _ ∈ fanMesh.cells
      rw [fan_cells]; simp

/-- Insertion of a vertex, two facets of the interface, splitting of one of them: a history with all kinds of steps. -/
example : Relation.ReflTransGen Any start split :=
  .tail (.tail (.tail (.tail .refl (.act (.adapt step_fan))) (.add (a := 0) (b := 3) (k := 1) (by decide) (by decide +kernel)))
    (.add (a := 1) (b := 3) (k := 1) (by decide) (by decide +kernel))) (.act (.adapt step_split))

end Verif.Sides
