import Verif.MultiId.Model

namespace Verif.MultiId

/-- `m` holds exactly the numbers `l`. -/
def Holds (m : MId) (l : List Word) : Prop :=
  m.size = l.length ∧ l.length ≤ 4 ∧ ∀ i, (hi : i < l.length) → m.at i = some l[i]

theorem at_put {m m' : MId} {i : Nat} {v : Word} (h : m.put i v = some m') (j : Nat) :
    m'.at j = if j = i then some v else m.at j := by
  unfold MId.put at h
  split at h
  · cases h
    unfold MId.at
    by_cases hj : j < 4
    · simp only [hj, dite_true]
      split <;> simp_all
    · have : j ≠ i := by omega
      simp [hj, this]
  · cases h

theorem put_size {m m' : MId} {i : Nat} {v : Word} (h : m.put i v = some m') :
    m'.size = m.size ∧ m'.hash = m.hash := by
  unfold MId.put at h
  split at h
  · cases h; simp
  · cases h

theorem fill_spec (l : List Word) : ∀ (m m' : MId) (i : Nat), m.fill i l = some m' →
    m'.size = m.size ∧ m'.hash = m.hash ∧
    (∀ j, j < i → m'.at j = m.at j) ∧ (∀ k, (hk : k < l.length) → m'.at (i + k) = some l[k]) ∧
    (l = [] ∨ i + l.length ≤ 4) := by
  induction l with
  | nil => intro m m' i h; simp [MId.fill] at h; subst h; simp
  | cons v vs ih =>
    intro m m' i h
    simp only [MId.fill] at h
    cases hp : m.put i v with
    | none => simp [hp] at h
    | some m1 =>
      simp only [hp, Option.bind_some] at h
      obtain ⟨h1, h2, h3, h4, h5⟩ := ih _ _ _ h
      have hs := put_size hp
      refine ⟨h1.trans hs.1, h2.trans hs.2, ?_, ?_, ?_⟩
      · intro j hj
        rw [h3 j (by omega), at_put hp]
        simp [show j ≠ i by omega]
      · intro k hk
        cases k with
        | zero =>
          rw [Nat.add_zero, h3 i (by omega), at_put hp]; simp
        | succ k =>
          have := h4 k (by simpa using hk)
          rw [show i + (k + 1) = i + 1 + k by omega, this]; simp
      · right
        have : i < 4 := by
          unfold MId.put at hp
          split at hp
          · assumption
          · cases hp
        cases h5 with
        | inl h => subst h; simp; omega
        | inr h => simp; omega

theorem fill_total (l : List Word) : ∀ (m : MId) (i : Nat), i + l.length ≤ 4 → (m.fill i l).isSome := by
  induction l with
  | nil => intro m i _; simp [MId.fill]
  | cons v vs ih =>
    intro m i h
    simp only [List.length_cons] at h
    have hi : i < 4 := by omega
    simp only [MId.fill, MId.put, hi, if_true, Option.bind_some]
    exact ih _ _ (by omega)

theorem holds_ofList {junk : Fin 4 → Word} {l : List Word} {m : MId} (h : ofList junk l = some m) :
    Holds m l ∧ m.hash = noHash := by
  obtain ⟨h1, h2, _, h4, h5⟩ := fill_spec _ _ _ _ h
  refine ⟨⟨h1, ?_, ?_⟩, h2⟩
  · cases h5 with
    | inl h => simp [h]
    | inr h => omega
  · intro i hi
    have := h4 i hi
    simpa using this

theorem ofList_isSome (junk : Fin 4 → Word) (l : List Word) :
    (ofList junk l).isSome ↔ l.length ≤ 4 := by
  constructor
  · intro h
    obtain ⟨m, hm⟩ := Option.isSome_iff_exists.1 h
    exact (holds_ofList hm).1.2.1
  · intro h
    exact fill_total _ _ _ (by omega)

theorem ltFrom_spec {a b : MId} {la lb : List Word} (ha : Holds a la) (hb : Holds b lb)
    (hlen : la.length = lb.length) : ∀ (n i : Nat), i + n = la.length →
    ltFrom a b n i = some (decide (la.drop i < lb.drop i)) := by
  intro n
  induction n with
  | zero =>
    intro i hi
    have h1 : la.drop i = [] := List.drop_eq_nil_of_le (by omega)
    have h2 : lb.drop i = [] := List.drop_eq_nil_of_le (by omega)
    simp [ltFrom, h1, h2]
  | succ n ih =>
    intro i hi
    have hia : i < la.length := by omega
    have hib : i < lb.length := by omega
    rw [List.drop_eq_getElem_cons hia, List.drop_eq_getElem_cons hib]
    simp only [ltFrom, ha.2.2 i hia, hb.2.2 i hib, Option.bind_eq_bind, Option.bind_some]
    by_cases hxy : la[i] = lb[i]
    · simp only [hxy, ne_eq, not_true_eq_false, if_false]
      rw [ih (i + 1) (by omega)]
      simp [-List.getElem_cons_drop]
    · simp only [ne_eq, hxy, not_false_eq_true, if_true]
      simp [List.cons_lt_cons_iff, hxy, -List.getElem_cons_drop]

theorem eqFrom_spec {a b : MId} {la lb : List Word} (ha : Holds a la) (hb : Holds b lb)
    (hlen : la.length = lb.length) : ∀ (n i : Nat), i + n = la.length →
    eqFrom a b n i = some (decide (la.drop i = lb.drop i)) := by
  intro n
  induction n with
  | zero =>
    intro i hi
    have h1 : la.drop i = [] := List.drop_eq_nil_of_le (by omega)
    have h2 : lb.drop i = [] := List.drop_eq_nil_of_le (by omega)
    simp [eqFrom, h1, h2]
  | succ n ih =>
    intro i hi
    have hia : i < la.length := by omega
    have hib : i < lb.length := by omega
    rw [List.drop_eq_getElem_cons hia, List.drop_eq_getElem_cons hib]
    simp only [eqFrom, ha.2.2 i hia, hb.2.2 i hib, Option.bind_eq_bind, Option.bind_some]
    by_cases hxy : la[i] = lb[i]
    · simp only [hxy, ne_eq, not_true_eq_false, if_false]
      rw [ih (i + 1) (by omega)]
      simp [-List.getElem_cons_drop]
    · simp [hxy, -List.getElem_cons_drop]

theorem vtFrom_spec {a : MId} {la : List Word} (ha : Holds a la) :
    ∀ (n i : Nat), i + n = la.length → vtFrom a n i = some (la.drop i) := by
  intro n
  induction n with
  | zero =>
    intro i hi
    have h1 : la.drop i = [] := List.drop_eq_nil_of_le (by omega)
    simp [vtFrom, h1]
  | succ n ih =>
    intro i hi
    have hia : i < la.length := by omega
    rw [List.drop_eq_getElem_cons hia]
    simp [vtFrom, ha.2.2 i hia, ih (i + 1) (by omega)]

theorem hashFrom_spec (h : Word → Word) {a : MId} {la : List Word} (ha : Holds a la) :
    ∀ (n i : Nat) (acc : Word), i + n = la.length →
    hashFrom h a n i acc =
      some (((la.drop i).zipIdx i).foldl (fun acc p => acc ^^^ (h p.1 <<< p.2)) acc) := by
  intro n
  induction n with
  | zero =>
    intro i acc hi
    have h1 : la.drop i = [] := List.drop_eq_nil_of_le (by omega)
    simp [hashFrom, h1]
  | succ n ih =>
    intro i acc hi
    have hia : i < la.length := by omega
    rw [List.drop_eq_getElem_cons hia]
    simp [hashFrom, ha.2.2 i hia, ih (i + 1) _ (by omega), -List.getElem_cons_drop]

end Verif.MultiId
