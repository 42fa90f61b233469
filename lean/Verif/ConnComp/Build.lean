import Verif.ConnComp.Props
import Verif.Components.Props

/-!
# C57: adapt builds the component of every request
-/

namespace Verif.ConnComp

open Verif Components

theorem step_unique {g : Grid} {cs : List (Nat × Comp)} {e : Nat} {o o' : Option (List (Nat × Comp))}
    (h : Step g cs e o) (h' : Step g cs e o') : o' = o := by
  cases h <;> cases h' <;> simp_all
  · rename_i h1 _ _ _ _ h2
    rw [insert_unique h1 h2]
  · rename_i h1 _ _ _ h2
    rw [insert_unique h1 h2]

theorem build_unique {g : Grid} {cs : List (Nat × Comp)} {l : List Nat} {o : Option (List (Nat × Comp))}
    (h : Build g cs l o) {o' : Option (List (Nat × Comp))} (h' : Build g cs l o') : o' = o := by
  induction h generalizing o' with
  | nil => cases h'; rfl
  | undefined hs =>
    cases h' with
    | undefined _ => rfl
    | cons hs' _ => cases step_unique hs hs'
  | cons hs _ ih =>
    cases h' with
    | undefined hs' => cases step_unique hs hs'
    | cons hs' hb =>
      have := step_unique hs hs'
      simp only [Option.some.injEq] at this
      subst this
      exact ih hb

/-- Every component id occurs only after all smaller ones: the vanishing elements are visited in an order in which the
component numbers appear as 1, 2, 3, … -/
def InOrder (ids : List Nat) : Prop := ∀ l1 k l2, ids = l1 ++ k :: l2 → ∀ j, j < k → j ∈ l1

/-- What holds when the elements `l` have been visited. -/
structure Built (g : Grid) (leaf l : List Nat) (cs : List (Nat × Comp)) : Prop where
  nodup : (cs.map Prod.fst).Nodup
  keys : ∀ j, j ∈ cs.map Prod.fst ↔ j < cs.length
  occurs : ∀ j, j < cs.length ↔ ∃ e ∈ l, g.vanish e = true ∧ g.num e = j + 1
  number : ∀ k c, Map.find cs k = some c → c.number = k + 1 ∧ c.entities.Nodup ∧
    (∀ x ∈ c.entities, x ∈ leaf ∧ g.num x = k + 1) ∧
    (∀ x ∈ c.entities, ∀ n ∈ g.nbr x, g.num n = k + 1 → g.isNew n = false → n ∈ c.entities) ∧
    ∀ e ∈ l, g.vanish e = true → g.num e = k + 1 → e ∈ c.entities

theorem length_set {cs : List (Nat × Comp)} {k : Nat} {c : Comp} (h : (cs.map Prod.fst).Nodup) :
    (Map.set cs k c).length = if k ∈ cs.map Prod.fst then cs.length else cs.length + 1 := by
  have h1 : (Map.erase cs k).length = if k ∈ cs.map Prod.fst then cs.length - 1 else cs.length := by
    clear c
    induction cs with
    | nil => simp [Map.erase]
    | cons a cs ih =>
      simp only [List.map_cons, List.nodup_cons] at h
      have ih := ih h.2
      simp only [Map.erase] at ih ⊢
      by_cases ha : a.1 = k
      · subst ha
        rw [List.filter_cons_of_neg (by simp), ih, if_neg h.1]
        simp
      · rw [List.filter_cons_of_pos (by simpa using ha), List.length_cons, ih]
        have : (k ∈ List.map Prod.fst (a :: cs)) ↔ k ∈ cs.map Prod.fst := by
          simp only [List.map_cons, List.mem_cons]
          exact ⟨fun h => h.resolve_left (fun h => ha h.symm), Or.inr⟩
        simp only [this]
        split
        · rename_i hk
          have := List.length_pos_of_mem hk
          simp only [List.length_map] at this
          simp only [List.length_cons]
          omega
        · simp
  unfold Map.set
  rw [List.length_append, h1]
  split
  · rename_i hk
    have := List.length_pos_of_mem hk
    simp only [List.length_map] at this
    simp only [List.length_cons, List.length_nil]
    omega
  · simp

theorem mem_keys_set {cs : List (Nat × Comp)} {k j : Nat} {c : Comp} :
    j ∈ (Map.set cs k c).map Prod.fst ↔ j = k ∨ j ∈ cs.map Prod.fst := by
  unfold Map.set
  rw [List.map_append, List.mem_append, Map.mem_keys_erase]
  simp only [List.map_cons, List.map_nil, List.mem_singleton]
  by_cases h : j = k <;> simp [h]

theorem step_built {g : Grid} {leaf l : List Nat} {cs : List (Nat × Comp)} (hfin : ∀ a n, n ∈ g.nbr a → n ∈ leaf)
    (hold : ∀ e ∈ leaf, g.isNew e = false) (hv : ∀ e ∈ leaf, (g.vanish e = true ↔ g.num e ≠ 0)) (e : Nat)
    (he : e ∈ leaf) (hord : g.vanish e = true → ∀ j, j + 1 < g.num e → ∃ e' ∈ l, g.vanish e' = true ∧ g.num e' = j + 1)
    (hb : Built g leaf l cs) : ∃ cs', Step g cs e (some cs') ∧ Built g leaf (l ++ [e]) cs' := by
  cases hve : g.vanish e with
  | false =>
    refine ⟨cs, .keep hve, hb.nodup, hb.keys, ?_, ?_⟩
    · intro j
      rw [hb.occurs]
      constructor
      · rintro ⟨x, hx, h⟩
        exact ⟨x, List.mem_append_left _ hx, h⟩
      · rintro ⟨x, hx, h⟩
        rcases List.mem_append.1 hx with hx | hx
        · exact ⟨x, hx, h⟩
        · simp only [List.mem_singleton] at hx
          subst hx
          rw [hve] at h
          simp at h
    · intro k c hc
      obtain ⟨h1, h2, h3, h4, h5⟩ := hb.number k c hc
      refine ⟨h1, h2, h3, h4, ?_⟩
      intro x hx hvx
      rcases List.mem_append.1 hx with hx | hx
      · exact h5 x hx hvx
      · simp only [List.mem_singleton] at hx
        subst hx
        rw [hve] at hvx
        cases hvx
  | true =>
    have hnum : g.num e ≠ 0 := (hv e he).1 hve
    obtain ⟨k, hk⟩ : ∃ k, g.num e = k + 1 := ⟨g.num e - 1, by omega⟩
    have hid : componentId g e = k := by simp [componentId, hk]
    have hreach : ∀ x, Reach g (k + 1) e x → x ∈ leaf ∧ g.num x = k + 1 := by
      intro x hx
      induction hx with
      | refl => exact ⟨he, hk⟩
      | tail _ hab _ => exact ⟨hfin _ _ hab.1, hab.2.1⟩
    have hocc : ∀ j, (∃ x ∈ l ++ [e], g.vanish x = true ∧ g.num x = j + 1) ↔
        j = k ∨ ∃ x ∈ l, g.vanish x = true ∧ g.num x = j + 1 := by
      intro j
      simp only [List.mem_append, List.mem_singleton, or_and_right, exists_or, exists_eq_left]
      constructor
      · rintro (h | h)
        · exact Or.inr h
        · exact Or.inl (by omega)
      · rintro (h | h)
        · exact Or.inr ⟨hve, by omega⟩
        · exact Or.inl h
    by_cases hlt : k < cs.length
    · obtain ⟨c, hc⟩ := Map.find_isSome_iff.2 ((hb.keys k).2 hlt)
      obtain ⟨h1, h2, h3, h4, h5⟩ := hb.number k c hc
      have hocc' : ∀ j, j < cs.length ↔ ∃ x ∈ l ++ [e], g.vanish x = true ∧ g.num x = j + 1 := by
        intro j
        rw [hocc, hb.occurs]
        constructor
        · exact Or.inr
        · rintro (rfl | h)
          · exact (hb.occurs j).1 hlt
          · exact h
      by_cases hin : e ∈ c.entities
      · refine ⟨cs, .has hve (hid ▸ hlt) (hold e he) (hid ▸ hc) hin, hb.nodup, hb.keys, hocc', ?_⟩
        intro k' c' hc'
        obtain ⟨h1, h2, h3, h4, h5⟩ := hb.number k' c' hc'
        refine ⟨h1, h2, h3, h4, ?_⟩
        intro x hx hvx hnx
        rcases List.mem_append.1 hx with hx | hx
        · exact h5 x hx hvx hnx
        · simp only [List.mem_singleton] at hx
          subst hx
          have : k' = k := by omega
          subst this
          rw [hc, Option.some.injEq] at hc'
          exact hc' ▸ hin
      · obtain ⟨es, hes⟩ := insert_exists g c.number leaf hfin (c.entities ++ [e]) (g.nbr e) (hfin e)
        obtain ⟨u1, u2⟩ := C25_update g c.number c.entities es e h2 hin (by rw [h1]; exact h4) hes
        have hu := insert_closed hes
        rw [h1] at u2 hu
        refine ⟨_, .update hve (hid ▸ hlt) (hold e he) (hid ▸ hc) hin hes, Map.nodup_set hb.nodup _ _, ?_, ?_, ?_⟩
        · intro j
          rw [mem_keys_set, length_set hb.nodup, hid, if_pos ((hb.keys k).2 hlt), hb.keys]
          constructor
          · rintro (rfl | h)
            · exact hlt
            · exact h
          · exact Or.inr
        · intro j
          rw [length_set hb.nodup, hid, if_pos ((hb.keys k).2 hlt)]
          exact hocc' j
        · intro k' c' hc'
          rw [hid, Map.find_set] at hc'
          split at hc'
          · rename_i hkk
            subst hkk
            simp only [Option.some.injEq] at hc'
            subst hc'
            refine ⟨h1, u1, ?_, ?_, ?_⟩
            · intro x hx
              rcases (u2 x).1 hx with hx | hx
              · exact h3 x hx
              · exact hreach x hx
            · intro x hx n hn hnn hno
              rcases (u2 x).1 hx with hx | hx
              · exact (u2 n).2 (Or.inl (h4 x hx n hn hnn hno))
              · exact (u2 n).2 (Or.inr (hx.tail ⟨hn, hnn, hno⟩))
            · intro x hx hvx hnx
              rcases List.mem_append.1 hx with hx | hx
              · exact (u2 x).2 (Or.inl (h5 x hx hvx hnx))
              · simp only [List.mem_singleton] at hx
                subst hx
                exact (u2 x).2 (Or.inr Relation.ReflTransGen.refl)
          · rename_i hkk
            obtain ⟨h1, h2, h3, h4, h5⟩ := hb.number k' c' hc'
            refine ⟨h1, h2, h3, h4, ?_⟩
            intro x hx hvx hnx
            rcases List.mem_append.1 hx with hx | hx
            · exact h5 x hx hvx hnx
            · simp only [List.mem_singleton] at hx
              subst hx
              omega
    · have hke : k = cs.length := by
        rcases Nat.lt_or_ge cs.length k with h | h
        · obtain ⟨e', he', hv', hn'⟩ := hord hve cs.length (by omega)
          have := (hb.occurs cs.length).2 ⟨e', he', hv', hn'⟩
          omega
        · omega
      obtain ⟨es, hes, -, hnd, hmem⟩ := C25_component g leaf hfin e
      rw [hk] at hmem
      have hnk : k ∉ cs.map Prod.fst := fun h => hlt ((hb.keys k).1 h)
      refine ⟨_, .create hve (hid ▸ hlt) hes, Map.nodup_set hb.nodup _ _, ?_, ?_, ?_⟩
      · intro j
        rw [mem_keys_set, length_set hb.nodup, hid, if_neg hnk, hb.keys]
        omega
      · intro j
        rw [length_set hb.nodup, hid, if_neg hnk, hocc, ← hb.occurs]
        omega
      · intro k' c' hc'
        rw [hid, Map.find_set] at hc'
        split at hc'
        · rename_i hkk
          subst hkk
          simp only [Option.some.injEq] at hc'
          subst hc'
          refine ⟨hk, hnd, fun x hx => hreach x ((hmem x).1 hx), ?_, ?_⟩
          · intro x hx n hn hnn hno
            exact (hmem n).2 (((hmem x).1 hx).tail ⟨hn, hnn, hno⟩)
          · intro x hx hvx hnx
            rcases List.mem_append.1 hx with hx | hx
            · have := (hb.occurs k').2 ⟨x, hx, hvx, hnx⟩
              exact absurd this hlt
            · simp only [List.mem_singleton] at hx
              subst hx
              exact (hmem x).2 Relation.ReflTransGen.refl
        · rename_i hkk
          obtain ⟨h1, h2, h3, h4, h5⟩ := hb.number k' c' hc'
          refine ⟨h1, h2, h3, h4, ?_⟩
          intro x hx hvx hnx
          rcases List.mem_append.1 hx with hx | hx
          · exact h5 x hx hvx hnx
          · simp only [List.mem_singleton] at hx
            subst hx
            omega

/-- The component ids of the vanishing elements in the order of iteration. -/
def idsOf (g : Grid) (leaf : List Nat) : List Nat := (leaf.filter (fun e => g.vanish e)).map (fun e => g.num e - 1)

theorem build_built {g : Grid} {leaf : List Nat} (hfin : ∀ a n, n ∈ g.nbr a → n ∈ leaf)
    (hold : ∀ e ∈ leaf, g.isNew e = false) (hv : ∀ e ∈ leaf, (g.vanish e = true ↔ g.num e ≠ 0))
    (hord : InOrder (idsOf g leaf)) :
    ∀ (r l : List Nat) (cs : List (Nat × Comp)), l ++ r = leaf → Built g leaf l cs →
      ∃ cs', Build g cs r (some cs') ∧ Built g leaf leaf cs' := by
  intro r
  induction r with
  | nil =>
    intro l cs hl hb
    simp only [List.append_nil] at hl
    subst hl
    exact ⟨cs, .nil, hb⟩
  | cons e r ih =>
    intro l cs hl hb
    have he : e ∈ leaf := by rw [← hl]; simp
    obtain ⟨cs', hs, hb'⟩ := step_built hfin hold hv e he (by
      intro hve j hj
      have := hord ((l.filter (fun e => g.vanish e)).map (fun e => g.num e - 1)) (g.num e - 1)
        ((r.filter (fun e => g.vanish e)).map (fun e => g.num e - 1)) (by
          rw [idsOf, ← hl, List.filter_append, List.map_append, List.filter_cons_of_pos hve, List.map_cons]) j (by omega)
      simp only [List.mem_map, List.mem_filter] at this
      obtain ⟨x, ⟨hx, hvx⟩, hxj⟩ := this
      have hx0 := (hv x (by rw [← hl]; simp [hx])).1 hvx
      exact ⟨x, hx, hvx, by omega⟩) hb
    obtain ⟨cs'', hbuild, hfinal⟩ := ih (l ++ [e]) cs' (by simp [← hl]) hb'
    exact ⟨cs'', .cons hs hbuild, hfinal⟩

/-- Building the components, on numbered elements: if component numbers appear in order, it ends without undefined
behaviour, and the component with number k consists of exactly the leaf elements with that number, each once. -/
theorem build_components {g : Grid} {leaf : List Nat} (hfin : ∀ a n, n ∈ g.nbr a → n ∈ leaf)
    (hold : ∀ e ∈ leaf, g.isNew e = false) (hv : ∀ e ∈ leaf, (g.vanish e = true ↔ g.num e ≠ 0))
    (hord : InOrder (idsOf g leaf)) :
    ∃ cs, Build g [] leaf (some cs) ∧ (∀ o, Build g [] leaf o → o = some cs) ∧
      ∀ e ∈ leaf, ∀ k, g.num e = k + 1 → ∃ c, Map.find cs k = some c ∧ c.entities.Nodup ∧
        ∀ x, x ∈ c.entities ↔ x ∈ leaf ∧ g.num x = k + 1 := by
  obtain ⟨cs, hb, hbuilt⟩ := build_built hfin hold hv hord leaf [] [] (by simp)
    ⟨by simp, by simp, by simp, by simp⟩
  refine ⟨cs, hb, fun o ho => build_unique hb ho, ?_⟩
  intro e he k hk
  have hlt := (hbuilt.occurs k).2 ⟨e, he, (hv e he).2 (by omega), hk⟩
  obtain ⟨c, hc⟩ := Map.find_isSome_iff.2 ((hbuilt.keys k).2 hlt)
  obtain ⟨h1, h2, h3, h4, h5⟩ := hbuilt.number k c hc
  refine ⟨c, hc, h2, fun x => ⟨h3 x, fun hx => ?_⟩⟩
  exact h5 x hx.1 ((hv x hx.1).2 (by omega)) hx.2

/-! ## Together with the marking -/

theorem markZone_vanish {s : State} {z : List Nat} (hs : 0 < s.count) {c : Nat}
    (h : s.vanish c = true ↔ s.num c ≠ 0) : (markZone s z).1.vanish c = true ↔ (markZone s z).1.num c ≠ 0 := by
  have := markZone_pos hs z
  simp only [markZone] at this ⊢
  by_cases hc : c ∈ z
  · simp only [hc, if_true, true_iff]
    omega
  · simp only [hc, if_false]
    exact h

theorem sweep_vanish (zs : List (List Nat)) {s : State} (hs : 0 < s.count) {c : Nat}
    (h : s.vanish c = true ↔ s.num c ≠ 0) : (sweep s zs).1.vanish c = true ↔ (sweep s zs).1.num c ≠ 0 := by
  induction zs generalizing s with
  | nil => exact h
  | cons z zs ih => exact ih (Nat.lt_of_lt_of_le hs (markZone_count z)) (markZone_vanish hs h)

theorem sweep_other (zs : List (List Nat)) {s : State} {c : Nat} (h : ¬ Cells zs c) :
    (sweep s zs).1.num c = s.num c := by
  induction zs generalizing s with
  | nil => rfl
  | cons z zs ih =>
    rw [sweep]
    simp only
    rw [ih (fun ⟨w, hw, hc⟩ => h ⟨w, List.mem_cons_of_mem _ hw, hc⟩)]
    simp only [markZone]
    rw [if_neg (fun hc => h ⟨z, List.mem_cons_self, hc⟩)]

theorem marking_vanish {zones : List (List Nat)} {s s' : State} {ids : List Nat} (hm : Marking zones s s' ids)
    (hs : 0 < s.count) {c : Nat} (h : s.vanish c = true ↔ s.num c ≠ 0) :
    (s'.vanish c = true ↔ s'.num c ≠ 0) ∧ (¬ Cells zones c → s'.num c = s.num c) := by
  induction hm with
  | done _ => exact ⟨sweep_vanish zones hs h, sweep_other zones⟩
  | again _ _ ih =>
    obtain ⟨h1, h2⟩ := ih (count_pos zones hs) (sweep_vanish zones hs h)
    exact ⟨h1, fun hc => (h2 hc).trans (sweep_other zones hc)⟩

/-- The grid the components are built on, after the marking has ended in state `s`. -/
def gridOf (s : State) (nbr : Nat → List Nat) (isNew : Nat → Bool) : Grid := ⟨nbr, s.num, isNew, s.vanish⟩

/-- C57: on leaf elements without marks from before and for requests with zones in the leaf, if the component numbers of
the marking are met in order by the iteration, then for every request there is a component with the id of the request, and
it contains exactly the leaf elements in the conflict zones of the requests linked with it, each once. For other
orders see `C57_exact` and `C182_order_false`. -/
theorem C57_in_order (leaf : List Nat) (nbr : Nat → List Nat) (isNew : Nat → Bool) (zones : List (List Nat))
    (s s' : State) (ids : List Nat) (hne : ∀ z ∈ zones, z ≠ []) (hleaf : ∀ z ∈ zones, ∀ c ∈ z, c ∈ leaf)
    (hfin : ∀ a n, n ∈ nbr a → n ∈ leaf) (hold : ∀ e ∈ leaf, isNew e = false)
    (hclean : ∀ e ∈ leaf, s.num e = 0 ∧ s.vanish e = false)
    (hm : Marking zones (start s 0) s' ids) (hord : InOrder (idsOf (gridOf s' nbr isNew) leaf)) :
    ∃ cs, Build (gridOf s' nbr isNew) [] leaf (some cs) ∧ (∀ o, Build (gridOf s' nbr isNew) [] leaf o → o = some cs) ∧
      ∀ i (hi : i < ids.length), ∃ c, Map.find cs ids[i] = some c ∧ c.entities.Nodup ∧
        ∀ x, x ∈ c.entities ↔ ∃ j z, zones[j]? = some z ∧ x ∈ z ∧ Linked zones i j := by
  have hv : ∀ e ∈ leaf, (s'.vanish e = true ↔ s'.num e ≠ 0) := by
    intro e he
    refine (marking_vanish hm (by simp [start]) ?_).1
    simp [start, hclean e he]
  obtain ⟨cs, hb, hu, hcs⟩ := build_components (g := gridOf s' nbr isNew) hfin hold hv hord
  refine ⟨cs, hb, hu, ?_⟩
  obtain ⟨s'', ids', hm', hlen, hlink, hnum⟩ := C24_linked zones s 0 hne
    (fun z hz c hc => (hclean c (hleaf z hz c hc)).1)
  obtain ⟨rfl, rfl⟩ := marking_unique hm hm'
  intro i hi
  have hzi := List.getElem?_eq_getElem (hlen ▸ hi)
  obtain ⟨ci, hci⟩ := List.exists_mem_of_ne_nil _ (hne _ (List.getElem_mem (hlen ▸ hi)))
  have hnum_ci := hnum i _ hzi ci hci _ (List.getElem?_eq_getElem hi)
  obtain ⟨c, hc, hnd, hmem⟩ := hcs ci (hleaf _ (List.getElem_mem (hlen ▸ hi)) ci hci) _ hnum_ci
  refine ⟨c, hc, hnd, fun x => (hmem x).trans ?_⟩
  constructor
  · rintro ⟨hx, hxn⟩
    have hcell : Cells zones x := by
      by_contra hcon
      have := (marking_vanish hm (by simp [start]) (c := x) (by simp [start, hclean x hx])).2 hcon
      rw [show (gridOf s'' nbr isNew).num x = s''.num x from rfl, this] at hxn
      simp [start, hclean x hx] at hxn
    obtain ⟨z, hz, hxz⟩ := hcell
    obtain ⟨j, hj, rfl⟩ := List.mem_iff_getElem.1 hz
    have hj' : j < ids'.length := hlen ▸ hj
    have hxj := hnum j _ (List.getElem?_eq_getElem hj) x hxz _ (List.getElem?_eq_getElem hj')
    refine ⟨j, _, List.getElem?_eq_getElem hj, hxz, (hlink i j hi hj').1 ?_⟩
    have : s''.num x = ids'[i] + 1 := hxn
    omega
  · rintro ⟨j, z, hz, hxz, hl⟩
    obtain ⟨hj, hzj⟩ := List.getElem?_eq_some_iff.1 hz
    have hj' : j < ids'.length := hlen ▸ hj
    have heq := (hlink i j hi hj').2 hl
    refine ⟨hleaf z (hzj ▸ List.getElem_mem hj) x hxz, ?_⟩
    rw [heq]
    exact hnum j z hz x hxz _ (List.getElem?_eq_getElem hj')

/-- A strip of ten triangles. -/
def exNbr (n : Nat) : List Nat := [n - 1, n + 1].filter (fun m => m ≠ n ∧ m < 10)

/-- The hypotheses hold for two overlapping requests and a separate one behind them. -/
example : Marking [[0, 1], [1, 2], [6, 7]] (start init 0) (sweep (start init 0) [[0, 1], [1, 2], [6, 7]]).1 [0, 0, 1] ∧
    InOrder (idsOf (gridOf (sweep (start init 0) [[0, 1], [1, 2], [6, 7]]).1 exNbr (fun _ => false)) (List.range 10)) := by
  refine ⟨.done (by decide), ?_⟩
  have : idsOf (gridOf (sweep (start init 0) [[0, 1], [1, 2], [6, 7]]).1 exNbr (fun _ => false)) (List.range 10) =
      [0, 0, 0, 1, 1] := by decide
  rw [this]
  intro l1 k l2 h j hj
  match l1, h with
  | [], h => simp only [List.nil_append, List.cons.injEq] at h; omega
  | [a], h => simp only [List.cons_append, List.nil_append, List.cons.injEq] at h; omega
  | [a, b], h => simp only [List.cons_append, List.nil_append, List.cons.injEq] at h; omega
  | [a, b, c], h =>
    simp only [List.cons_append, List.nil_append, List.cons.injEq] at h
    simp only [List.mem_cons]
    omega
  | [a, b, c, d], h =>
    simp only [List.cons_append, List.nil_append, List.cons.injEq] at h
    simp only [List.mem_cons]
    omega
  | a :: b :: c :: d :: e :: l, h =>
    have := congrArg List.length h
    simp at this

/-- C182 is false for other orders of requests: with the request in the elements 5 and 6 made before the one in the
elements 0 and 1, building the components on a fresh strip of ten triangles is undefined. -/
theorem C182_order_false :
    ¬ ∀ (leaf : List Nat) (nbr : Nat → List Nat) (zones : List (List Nat)) (s' : State) (ids : List Nat),
      (∀ z ∈ zones, z ≠ []) → (∀ z ∈ zones, ∀ c ∈ z, c ∈ leaf) → (∀ a n, n ∈ nbr a → n ∈ leaf) →
      Marking zones (start init 0) s' ids → ¬ Build (gridOf s' nbr (fun _ => false)) [] leaf none := by
  intro h
  have hm : Marking [[5, 6], [0, 1]] (start init 0) _ _ := .done (by decide)
  refine h (List.range 10) exNbr [[5, 6], [0, 1]] _ _ (by decide) (by decide) ?_ hm ?_
  · intro a n hn
    simp only [exNbr, List.mem_filter, decide_eq_true_eq] at hn
    simp only [List.mem_range]
    exact hn.2.2
  · have c1 : Construct (gridOf (sweep (start init 0) [[5, 6], [0, 1]]).1 exNbr (fun _ => false)) 0 [0, 1] :=
      insertN_sound (f := 10) (by decide)
    have c2 : Construct (gridOf (sweep (start init 0) [[5, 6], [0, 1]]).1 exNbr (fun _ => false)) 1 [1, 0] :=
      insertN_sound (f := 10) (by decide)
    refine .cons (.create (by decide) (by decide) c1) ?_
    refine .cons (.create (by decide) (by decide) c2) ?_
    refine .cons (.keep (by decide)) (.cons (.keep (by decide)) (.cons (.keep (by decide)) ?_))
    exact .undefined (.undefined (by decide) (by decide) (by decide) (by decide))

end Verif.ConnComp
