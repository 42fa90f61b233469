import Verif.Factory.Model

/-!
# The matching loop
-/

namespace Verif.Factory

variable {d : Nat}

/-- One step of the loops: register a facet, or connect two slots directly. -/
inductive Op (d : Nat) where
  | facet (key : Finset Nat) (s : Slot d)
  | link (s s' : Slot d)

def Op.slots : Op d → List (Slot d)
  | .facet _ s => [s]
  | .link s s' => [s, s']

def Op.run (st : MState d) : Op d → MState d
  | .facet k s => addFacet st k s
  | .link s s' => { st with nbr := Factory.link st.nbr s s' }

/-- every key is registered by at most two slots -/
def AtMostTwo (ops : List (Op d)) : Prop :=
  ∀ k s1 s2 s3, Op.facet k s1 ∈ ops → Op.facet k s2 ∈ ops → Op.facet k s3 ∈ ops → s1 = s2 ∨ s1 = s3 ∨ s2 = s3

structure Good (nbr0 : Slot d → Option Nat) (ops : List (Op d)) (st : MState d) : Prop where
  other : ∀ s, s ∉ ops.flatMap Op.slots → st.nbr s = nbr0 s
  facet : ∀ k s, Op.facet k s ∈ ops → ∀ h', st.nbr s = some h' ↔ ∃ s', s' ≠ s ∧ Op.facet k s' ∈ ops ∧ s'.1 = h'
  link : ∀ s s', Op.link s s' ∈ ops → st.nbr s = some s'.1 ∧ st.nbr s' = some s.1
  fmap : ∀ k s, (k, s) ∈ st.fmap ↔ Op.facet k s ∈ ops ∧ ∀ s', Op.facet k s' ∈ ops → s' = s
  nodup : st.fmap.Nodup

theorem mem_slots {ops : List (Op d)} {o : Op d} {s : Slot d} (ho : o ∈ ops) (hs : s ∈ o.slots) :
    s ∈ ops.flatMap Op.slots := List.mem_flatMap.2 ⟨o, ho, hs⟩

theorem run_good (nbr0 : Slot d → Option Nat) (ops : List (Op d)) (hnd : (ops.flatMap Op.slots).Nodup)
    (h0 : ∀ s ∈ ops.flatMap Op.slots, nbr0 s = none) (h2 : AtMostTwo ops) :
    Good nbr0 ops (ops.foldl Op.run { nbr := nbr0, fmap := [] }) := by
  induction ops using List.reverseRecOn with
  | nil =>
    refine ⟨fun _ _ => rfl, ?_, ?_, ?_, List.nodup_nil⟩ <;> simp
  | append_singleton ops o ih =>
    rw [List.flatMap_append, List.flatMap_cons, List.flatMap_nil, List.append_nil] at hnd h0
    have hnd1 := (List.nodup_append.1 hnd).1
    have hnd2 := (List.nodup_append.1 hnd).2.1
    have hdisj : ∀ s ∈ ops.flatMap Op.slots, s ∉ o.slots := fun s hs ho => (List.nodup_append.1 hnd).2.2 s hs s ho rfl
    have G := ih hnd1 (fun s hs => h0 s (List.mem_append_left _ hs))
      (fun k s1 s2 s3 m1 m2 m3 => h2 k s1 s2 s3 (List.mem_append_left _ m1) (List.mem_append_left _ m2)
        (List.mem_append_left _ m3))
    rw [List.foldl_append]
    simp only [List.foldl_cons, List.foldl_nil]
    generalize ops.foldl Op.run { nbr := nbr0, fmap := [] } = st at G
    cases o with
    | link a b =>
      have hab : a ≠ b := by
        intro e; subst e; simp [Op.slots] at hnd2
      have ha : a ∉ ops.flatMap Op.slots := fun hs => hdisj a hs (by simp [Op.slots])
      have hb : b ∉ ops.flatMap Op.slots := fun hs => hdisj b hs (by simp [Op.slots])
      have keep : ∀ s, s ≠ a → s ≠ b → Factory.link st.nbr a b s = st.nbr s := by
        intro s h1 h2; unfold Factory.link; rw [if_neg h2, if_neg h1]
      have memf : ∀ k s, Op.facet k s ∈ ops ++ [Op.link a b] ↔ Op.facet k s ∈ ops := by simp
      refine ⟨?_, ?_, ?_, ?_, G.nodup⟩
      · intro s hs
        simp only [List.flatMap_append, List.flatMap_cons, List.flatMap_nil, List.append_nil, Op.slots,
          List.mem_append, List.mem_cons, List.not_mem_nil, or_false, not_or] at hs
        change Factory.link st.nbr a b s = _
        rw [keep s hs.2.1 hs.2.2]; exact G.other s hs.1
      · intro k s hm h'
        rw [memf] at hm
        have hs := mem_slots hm (s := s) (by simp [Op.slots])
        change Factory.link st.nbr a b s = _ ↔ _
        rw [keep s (fun e => ha (e ▸ hs)) (fun e => hb (e ▸ hs)), G.facet k s hm h']
        simp only [memf]
      · intro s s' hm
        simp only [List.mem_append, List.mem_cons, List.not_mem_nil, or_false] at hm
        rcases hm with hm | hm
        · have hs := mem_slots hm (s := s) (by simp [Op.slots])
          have hs' := mem_slots hm (s := s') (by simp [Op.slots])
          change Factory.link st.nbr a b s = _ ∧ Factory.link st.nbr a b s' = _
          rw [keep s (fun e => ha (e ▸ hs)) (fun e => hb (e ▸ hs)),
            keep s' (fun e => ha (e ▸ hs')) (fun e => hb (e ▸ hs'))]
          exact G.link s s' hm
        · simp only [Op.link.injEq] at hm
          obtain ⟨rfl, rfl⟩ := hm
          change Factory.link st.nbr s s' s = _ ∧ Factory.link st.nbr s s' s' = _
          unfold Factory.link
          rw [if_neg hab, if_pos rfl, if_pos rfl]; exact ⟨rfl, rfl⟩
      · intro k s
        simp only [memf]
        exact G.fmap k s
    | facet k a =>
      have ha : a ∉ ops.flatMap Op.slots := fun hs => hdisj a hs (by simp [Op.slots])
      have hnew : ∀ k', Op.facet k' a ∉ ops := fun k' hm => ha (mem_slots hm (by simp [Op.slots]))
      have hafree : st.nbr a = none := by
        rw [G.other a ha]; exact h0 a (List.mem_append_right _ (by simp [Op.slots]))
      have memf : ∀ k' s, Op.facet k' s ∈ ops ++ [Op.facet k a] ↔ Op.facet k' s ∈ ops ∨ (k' = k ∧ s = a) := by simp
      have meml : ∀ s s', Op.link s s' ∈ ops ++ [Op.facet k a] ↔ Op.link s s' ∈ ops := by simp
      have mems : ∀ s, s ∈ (ops ++ [Op.facet k a]).flatMap Op.slots ↔ s ∈ ops.flatMap Op.slots ∨ s = a := by
        intro s
        rw [List.flatMap_append, List.mem_append, List.flatMap_cons, List.flatMap_nil, List.append_nil]
        simp [Op.slots]
      simp only [Op.run, addFacet]
      cases hf : st.fmap.find? (fun e => decide (e.1 = k)) with
      | none =>
        simp only
        have hno : ∀ s, (k, s) ∉ st.fmap := by
          intro s hm
          have := List.find?_eq_none.1 hf _ hm
          simp at this
        -- the key was not registered before
        have hk : ∀ s, Op.facet k s ∉ ops := by
          intro s hm
          by_cases hp : ∃ s', s' ≠ s ∧ Op.facet k s' ∈ ops
          · obtain ⟨s', hne, hm'⟩ := hp
            rcases h2 k s s' a ((memf _ _).2 (Or.inl hm)) ((memf _ _).2 (Or.inl hm'))
              ((memf _ _).2 (Or.inr ⟨rfl, rfl⟩)) with h | h | h
            · exact hne h.symm
            · exact hnew k (h ▸ hm)
            · exact hnew k (h ▸ hm')
          · refine hno s ((G.fmap k s).2 ⟨hm, fun s' hm' => ?_⟩)
            by_contra hne
            exact hp ⟨s', hne, hm'⟩
        refine ⟨?_, ?_, ?_, ?_, ?_⟩
        · intro s hs
          rw [mems, not_or] at hs
          exact G.other s hs.1
        · intro k' s hm h'
          rw [memf] at hm
          rcases hm with hm | ⟨rfl, rfl⟩
          · rw [G.facet k' s hm h']
            constructor
            · rintro ⟨s', h1, h2', h3⟩; exact ⟨s', h1, (memf _ _).2 (Or.inl h2'), h3⟩
            · rintro ⟨s', h1, h2', h3⟩
              rcases (memf _ _).1 h2' with h | ⟨rfl, rfl⟩
              · exact ⟨s', h1, h, h3⟩
              · exact absurd hm (hk s)
          · change st.nbr s = _ ↔ _
            rw [hafree]
            constructor
            · intro h; exact absurd h (by simp)
            · rintro ⟨s', h1, h2', h3⟩
              rcases (memf _ _).1 h2' with h | ⟨-, rfl⟩
              · exact absurd h (hk s')
              · exact absurd rfl h1
        · intro s s' hm
          exact G.link s s' ((meml _ _).1 hm)
        · intro k' s
          rw [List.mem_append, G.fmap k' s]
          simp only [List.mem_cons, List.not_mem_nil, or_false, Prod.mk.injEq, memf]
          constructor
          · rintro (⟨h1, h2'⟩ | ⟨rfl, rfl⟩)
            · refine ⟨Or.inl h1, fun s' hs' => ?_⟩
              rcases hs' with h | ⟨rfl, rfl⟩
              · exact h2' s' h
              · exact absurd h1 (hk s)
            · refine ⟨Or.inr ⟨rfl, rfl⟩, fun s' hs' => ?_⟩
              rcases hs' with h | ⟨-, rfl⟩
              · exact absurd h (hk s')
              · rfl
          · rintro ⟨h1 | ⟨rfl, rfl⟩, h2'⟩
            · exact Or.inl ⟨h1, fun s' h => h2' s' (Or.inl h)⟩
            · exact Or.inr ⟨rfl, rfl⟩
        · refine List.nodup_append.2 ⟨G.nodup, by simp, ?_⟩
          intro e he e' he' heq
          simp only [List.mem_cons, List.not_mem_nil, or_false] at he'
          subst he'; subst heq
          exact hno a he
      | some e =>
        obtain ⟨ke, b⟩ := e
        have hkb : (k, b) ∈ st.fmap := by
          have h1 := List.mem_of_find?_eq_some hf
          have h3 : ke = k := by simpa using List.find?_some hf
          rw [← h3]; exact h1
        obtain ⟨hb, huniq⟩ := (G.fmap k b).1 hkb
        have hab : a ≠ b := fun e => hnew k (e ▸ hb)
        simp only
        have keep : ∀ s, s ≠ a → s ≠ b → Factory.link st.nbr a b s = st.nbr s := by
          intro s h1 h2; unfold Factory.link; rw [if_neg h2, if_neg h1]
        have hbslot := mem_slots hb (s := b) (by simp [Op.slots])
        refine ⟨?_, ?_, ?_, ?_, ?_⟩
        · intro s hs
          rw [mems, not_or] at hs
          change Factory.link st.nbr a b s = _
          rw [keep s hs.2 (fun e => hs.1 (e ▸ hbslot))]
          exact G.other s hs.1
        · intro k' s hm h'
          change Factory.link st.nbr a b s = _ ↔ _
          rw [memf] at hm
          rcases hm with hm | ⟨rfl, rfl⟩
          · have hsa : s ≠ a := fun e => hnew k' (e ▸ hm)
            by_cases hsb : s = b
            · -- the slot that was waiting; its key is `k` because slots are distinct
              subst hsb
              have hkk : k' = k := by
                -- two facet operations on one slot would repeat it
                obtain ⟨l1, l2, hl⟩ := List.append_of_mem hm
                by_contra hne
                have hb' : Op.facet k s ∈ l1 ∨ Op.facet k s ∈ l2 := by
                  rw [hl] at hb
                  simp only [List.mem_append, List.mem_cons, Op.facet.injEq] at hb
                  rcases hb with h | h | h
                  · exact Or.inl h
                  · exact absurd h.1.symm hne
                  · exact Or.inr h
                rw [hl, List.flatMap_append, List.flatMap_cons] at hnd1
                rcases hb' with h | h
                · exact (List.nodup_append.1 hnd1).2.2 s (mem_slots h (by simp [Op.slots])) s (by simp [Op.slots]) rfl
                · have := (List.nodup_append.1 hnd1).2.1
                  exact (List.nodup_append.1 this).2.2 s (by simp [Op.slots]) s (mem_slots h (by simp [Op.slots])) rfl
              subst hkk
              unfold Factory.link
              rw [if_pos rfl]
              constructor
              · intro h
                exact ⟨a, hab, (memf _ _).2 (Or.inr ⟨rfl, rfl⟩), Option.some.inj h⟩
              · rintro ⟨s', h1, h2', h3⟩
                rcases (memf _ _).1 h2' with h | ⟨-, rfl⟩
                · exact absurd (huniq s' h) h1
                · rw [h3]
            · rw [keep s hsa hsb, G.facet k' s hm h']
              constructor
              · rintro ⟨s', h1, h2', h3⟩; exact ⟨s', h1, (memf _ _).2 (Or.inl h2'), h3⟩
              · rintro ⟨s', h1, h2', h3⟩
                rcases (memf _ _).1 h2' with h | ⟨rfl, rfl⟩
                · exact ⟨s', h1, h, h3⟩
                · exact absurd (huniq s hm) hsb
          · unfold Factory.link
            rw [if_neg hab, if_pos rfl]
            constructor
            · intro h
              exact ⟨b, Ne.symm hab, (memf _ _).2 (Or.inl hb), Option.some.inj h⟩
            · rintro ⟨s', h1, h2', h3⟩
              rcases (memf _ _).1 h2' with h | ⟨-, rfl⟩
              · rw [huniq s' h] at h3; rw [h3]
              · exact absurd rfl h1
        · intro s s' hm
          have hm := (meml _ _).1 hm
          have hs := mem_slots hm (s := s) (by simp [Op.slots])
          have hs' := mem_slots hm (s := s') (by simp [Op.slots])
          have hnb : ∀ t, t = s ∨ t = s' → t ≠ b := by
            intro t ht e
            subst e
            obtain ⟨l1, l2, hl⟩ := List.append_of_mem hm
            have hb' : Op.facet k t ∈ l1 ∨ Op.facet k t ∈ l2 := by
              rw [hl] at hb
              simpa using hb
            have htl : t ∈ (Op.link s s').slots := by
              rcases ht with rfl | rfl <;> simp [Op.slots]
            rw [hl, List.flatMap_append, List.flatMap_cons] at hnd1
            rcases hb' with h | h
            · exact (List.nodup_append.1 hnd1).2.2 t (mem_slots h (by simp [Op.slots])) t
                (List.mem_append_left _ htl) rfl
            · have := (List.nodup_append.1 hnd1).2.1
              exact (List.nodup_append.1 this).2.2 t htl t (mem_slots h (by simp [Op.slots])) rfl
          change Factory.link st.nbr a b s = _ ∧ Factory.link st.nbr a b s' = _
          rw [keep s (fun e => ha (e ▸ hs)) (hnb s (Or.inl rfl)), keep s' (fun e => ha (e ▸ hs')) (hnb s' (Or.inr rfl))]
          exact G.link s s' hm
        · intro k' s
          simp only [List.mem_filter, G.fmap k' s, decide_not, Bool.not_eq_true', decide_eq_false_iff_not, memf]
          constructor
          · rintro ⟨⟨h1, h2'⟩, h3⟩
            refine ⟨Or.inl h1, fun s' hs' => ?_⟩
            rcases hs' with h | ⟨rfl, rfl⟩
            · exact h2' s' h
            · exact absurd rfl h3
          · rintro ⟨h1 | ⟨rfl, rfl⟩, h2'⟩
            · refine ⟨⟨h1, fun s' h => h2' s' (Or.inl h)⟩, ?_⟩
              rintro rfl
              have e1 := h2' a (Or.inr ⟨rfl, rfl⟩)
              exact hnew k' (e1 ▸ h1)
            · exact absurd (h2' b (Or.inl hb)).symm hab
        · exact G.nodup.filter _

end Verif.Factory
