import Verif.MultiId.Lemmas

/-!
# C01, C02: entity ids

Specification vocabulary: an id stands for the list of vertex numbers it was built from; ids are ordered
first by length, then lexicographically; the hash of a list is a fixed function of the list.
-/

namespace Verif.MultiId

/-- Specification of the order: shorter lists first, equally long lists lexicographically. -/
def ShortLex (a b : List Word) : Prop :=
  a.length < b.length ∨ (a.length = b.length ∧ a < b)

/-- Specification of the hash of a list of numbers: number `i` contributes its hash shifted by `i` bits. -/
def specHash (h : Word → Word) (l : List Word) : Word :=
  (l.zipIdx).foldl (fun acc p => acc ^^^ (h p.1 <<< p.2)) 0

/-- **C01** Construction is defined behaviour exactly for at most four numbers. -/
theorem C01_construction_defined_iff (junk : Fin 4 → Word) (l : List Word) :
    (ofList junk l).isSome ↔ l.length ≤ 4 := ofList_isSome junk l

/-- Non-vacuity and the excluded case: four numbers are fine, five write outside the array. -/
example : (ofList (fun _ => 7) [3, 1, 4, 1]).isSome ∧ ¬ (ofList (fun _ => 7) [3, 1, 4, 1, 5]).isSome := by
  simp [C01_construction_defined_iff]

/-- **C01** The numbers can be read back unchanged, whatever the memory contained before. -/
theorem C01_vt_roundtrip {junk : Fin 4 → Word} {l : List Word} {a : MId} (ha : ofList junk l = some a) :
    vt a = some l := by
  have h := (holds_ofList ha).1
  unfold vt
  rw [vtFrom_spec h _ 0 (by have := h.1; omega)]
  simp

/-- **C01** `a == b` holds exactly when `a` and `b` were built from the same numbers in the same order,
and evaluating it is always defined. -/
theorem C01_eq_iff_same_numbers {j₁ j₂ : Fin 4 → Word} {l₁ l₂ : List Word} {a b : MId}
    (ha : ofList j₁ l₁ = some a) (hb : ofList j₂ l₂ = some b) :
    eq a b = some (decide (l₁ = l₂)) := by
  have h1 := (holds_ofList ha).1
  have h2 := (holds_ofList hb).1
  unfold eq
  by_cases hlen : l₁.length = l₂.length
  · simp only [h1.1, h2.1, hlen, ne_eq, not_true_eq_false, if_false]
    rw [eqFrom_spec h1 h2 hlen _ 0 (by omega)]
    simp
  · have : l₁ ≠ l₂ := fun h => hlen (by rw [h])
    simp [h1.1, h2.1, hlen, this]

/-- **C01** `a < b` is the shortlex order of the lists the ids were built from. -/
theorem C01_lt_iff_shortlex {j₁ j₂ : Fin 4 → Word} {l₁ l₂ : List Word} {a b : MId}
    (ha : ofList j₁ l₁ = some a) (hb : ofList j₂ l₂ = some b) :
    ∃ r, lt a b = some r ∧ (r = true ↔ ShortLex l₁ l₂) := by
  have h1 := (holds_ofList ha).1
  have h2 := (holds_ofList hb).1
  unfold lt ShortLex
  by_cases hlen : l₁.length = l₂.length
  · simp only [h1.1, h2.1, hlen, ne_eq, not_true_eq_false, if_false]
    rw [ltFrom_spec h1 h2 hlen _ 0 (by omega)]
    simp
  · simp [h1.1, h2.1, hlen]

theorem ShortLex.trans {a b c : List Word} (h1 : ShortLex a b) (h2 : ShortLex b c) : ShortLex a c := by
  unfold ShortLex at *
  rcases h1 with h1 | ⟨h1, h1'⟩ <;> rcases h2 with h2 | ⟨h2, h2'⟩
  · left; omega
  · left; omega
  · left; omega
  · right; exact ⟨h1.trans h2, List.lt_trans h1' h2'⟩

/-- **C01** `<` is a strict total order compatible with `==` and `<=`: irreflexive, asymmetric,
transitive, any two ids are comparable, and `a <= b` means `a < b` or `a == b`. -/
theorem C01_strict_total_order {j₁ j₂ j₃ : Fin 4 → Word} {l₁ l₂ l₃ : List Word} {a b c : MId}
    (ha : ofList j₁ l₁ = some a) (hb : ofList j₂ l₂ = some b) (hc : ofList j₃ l₃ = some c) :
    lt a a = some false ∧
    (lt a b = some true → lt b a = some false) ∧
    (lt a b = some true → lt b c = some true → lt a c = some true) ∧
    (lt a b = some true ∨ eq a b = some true ∨ lt b a = some true) ∧
    (eq a b = some true → lt a b = some false) ∧
    (le a b = some true ↔ lt a b = some true ∨ eq a b = some true) := by
  obtain ⟨raa, haa, haa'⟩ := C01_lt_iff_shortlex ha ha
  obtain ⟨rab, hab, hab'⟩ := C01_lt_iff_shortlex ha hb
  obtain ⟨rba, hba, hba'⟩ := C01_lt_iff_shortlex hb ha
  obtain ⟨rbc, hbc, hbc'⟩ := C01_lt_iff_shortlex hb hc
  obtain ⟨rac, hac, hac'⟩ := C01_lt_iff_shortlex ha hc
  have heq := C01_eq_iff_same_numbers ha hb
  have irr : ∀ l : List Word, ¬ ShortLex l l := by
    intro l h
    rcases h with h | ⟨_, h⟩
    · omega
    · exact List.lt_irrefl l h
  have tri : ShortLex l₁ l₂ ∨ l₁ = l₂ ∨ ShortLex l₂ l₁ := by
    unfold ShortLex
    rcases Nat.lt_trichotomy l₁.length l₂.length with h | h | h
    · exact .inl (.inl h)
    · by_cases h1 : l₁ < l₂
      · exact .inl (.inr ⟨h, h1⟩)
      · by_cases h2 : l₂ < l₁
        · exact .inr (.inr (.inr ⟨h.symm, h2⟩))
        · exact .inr (.inl (List.le_antisymm (List.not_lt.1 h2) (List.not_lt.1 h1)))
    · exact .inr (.inr (.inl h))
  have asym : ShortLex l₁ l₂ → ¬ ShortLex l₂ l₁ := fun h1 h2 => irr _ (h1.trans h2)
  have tr : ShortLex l₁ l₂ → ShortLex l₂ l₃ → ShortLex l₁ l₃ := ShortLex.trans
  have i1 := irr l₁
  have i2 : l₁ = l₂ → ¬ ShortLex l₁ l₂ := by intro h; subst h; exact irr _
  have i3 : l₁ = l₂ → ¬ ShortLex l₂ l₁ := by intro h; subst h; exact irr _
  unfold le
  rw [haa, hab, hba, hbc, hac, heq]
  clear irr haa hab hba hbc hac heq ha hb hc
  generalize ShortLex l₁ l₂ = p12 at *
  generalize ShortLex l₂ l₁ = p21 at *
  generalize ShortLex l₂ l₃ = p23 at *
  generalize ShortLex l₁ l₃ = p13 at *
  generalize ShortLex l₁ l₁ = p11 at *
  simp only [Option.some.injEq, Option.map_some, decide_eq_true_eq]
  generalize (l₁ = l₂) = q at *
  by_cases p12 <;> by_cases p21 <;> by_cases q <;> cases raa <;> cases rab <;> cases rba <;>
    cases rbc <;> cases rac <;> simp_all

/-- Concrete ids of different shapes: an edge id precedes an element id, and ids of edges are ordered
lexicographically. -/
example : ∃ a b c, ofList (fun _ => 9) [5, 7] = some a ∧ ofList (fun _ => 0) [5, 8] = some b ∧
    ofList (fun _ => 1) [1, 2, 3] = some c ∧ lt a b = some true ∧ lt b c = some true := by
  refine ⟨_, _, _, rfl, rfl, rfl, ?_, ?_⟩ <;> decide

/-! ## Hash values and histories -/

/-- Specification of the store of ids: just the lists of numbers. -/
def absStep (h : Word → Word) (s : List (List Word)) : Op → Option (List (List Word) × Option Word)
  | .mk _ l => if l.length ≤ 4 then some (s ++ [l], none) else none
  | .mkEmpty _ => some (s ++ [[]], none)
  | .copy i => s[i]?.map fun l => (s ++ [l], none)
  | .assign i j => do
    let _ ← s[i]?
    let l ← s[j]?
    some (s.set i l, none)
  | .hash i => do
    let l ← s[i]?
    some (s, some (specHash h l))

/-- A history of the specification, with the hash values that must be observed. -/
def absRun (h : Word → Word) (s : List (List Word)) : List Op → Option (List (List Word) × List Word)
  | [] => some (s, [])
  | op :: ops => do
    let (s', o) ← absStep h s op
    let (s'', os) ← absRun h s' ops
    some (s'', o.toList ++ os)

/-- The cached value is either absent or the right one. -/
def Good (h : Word → Word) (m : MId) (l : List Word) : Prop :=
  Holds m l ∧ (m.hash = noHash ∨ m.hash = specHash h l)

/-- Both stores have the same objects. -/
def Rel (h : Word → Word) (s : List MId) (t : List (List Word)) : Prop :=
  s.length = t.length ∧ ∀ i, (h1 : i < s.length) → (h2 : i < t.length) → Good h s[i] t[i]

theorem hash_spec (h : Word → Word) {m : MId} {l : List Word} (hg : Good h m l) :
    ∃ m', MultiId.hash h m = some (specHash h l, m') ∧ Good h m' l := by
  obtain ⟨hh, hc⟩ := hg
  unfold MultiId.hash
  by_cases hn : m.hash = noHash
  · simp only [hn, if_true]
    cases l with
    | nil =>
      have : m.size = 0 := hh.1
      simp only [this, if_true, specHash]
      refine ⟨_, rfl, ?_⟩
      refine ⟨⟨by simp, hh.2⟩, .inr rfl⟩
    | cons x xs =>
      have hs : m.size = xs.length + 1 := hh.1
      have h0 : m.at 0 = some x := hh.2.2 0 (by simp)
      have hl : (x :: xs).length = xs.length + 1 := rfl
      rw [if_neg (by omega)]
      simp only [h0, Option.bind_eq_bind, Option.bind_some]
      rw [hashFrom_spec h hh _ 1 _ (by omega)]
      have key : (((x :: xs).drop 1).zipIdx 1).foldl (fun acc p => acc ^^^ (h p.1 <<< p.2)) (h x)
          = specHash h (x :: xs) := by
        simp [specHash]
      rw [key]
      exact ⟨_, rfl, ⟨⟨hh.1, hh.2⟩, .inr rfl⟩⟩
  · simp only [hn, if_false]
    have : m.hash = specHash h l := by simpa [hn] using hc
    rw [this]
    exact ⟨m, rfl, hh, .inr this⟩

theorem rel_append {h : Word → Word} {s t m l} (hr : Rel h s t) (hg : Good h m l) :
    Rel h (s ++ [m]) (t ++ [l]) := by
  refine ⟨by simp [hr.1], ?_⟩
  intro i h1 h2
  rw [List.getElem_append, List.getElem_append]
  by_cases hi : i < s.length
  · have hi' : i < t.length := hr.1 ▸ hi
    simp [hi, hi', hr.2 i hi hi']
  · have hi' : ¬ i < t.length := hr.1 ▸ hi
    simpa [hi, hi'] using hg

theorem rel_set {h : Word → Word} {s t m l} (hr : Rel h s t) (i : Nat) (hg : Good h m l) :
    Rel h (s.set i m) (t.set i l) := by
  refine ⟨by simp [hr.1], ?_⟩
  intro k h1 h2
  simp only [List.length_set] at h1 h2
  rw [List.getElem_set, List.getElem_set]
  split
  · exact hg
  · exact hr.2 k h1 h2

theorem rel_get {h : Word → Word} {s t} (hr : Rel h s t) (i : Nat) :
    (s[i]? = none ∧ t[i]? = none) ∨ ∃ m l, s[i]? = some m ∧ t[i]? = some l ∧ Good h m l := by
  by_cases hi : i < s.length
  · have hi' : i < t.length := hr.1 ▸ hi
    exact .inr ⟨s[i], t[i], by simp [hi], by simp [hi'], hr.2 i hi hi'⟩
  · have hi' : ¬ i < t.length := hr.1 ▸ hi
    left
    constructor
    · simpa using hi
    · simpa using hi'

/-- One operation behaves as specified: defined in the same cases, same observation, related results. -/
theorem step_refines (h : Word → Word) {s t} (hr : Rel h s t) (op : Op) :
    (step h s op = none ∧ absStep h t op = none) ∨
    ∃ s' t' o, step h s op = some (s', o) ∧ absStep h t op = some (t', o) ∧ Rel h s' t' := by
  cases op with
  | mk junk l =>
    cases hm : ofList junk l with
    | none =>
      have : ¬ l.length ≤ 4 := by
        rw [← ofList_isSome junk l, hm]; simp
      left; simp [step, hm, absStep, this]
    | some m =>
      have hl : l.length ≤ 4 := by rw [← ofList_isSome junk l, hm]; rfl
      right
      refine ⟨s ++ [m], t ++ [l], none, by simp [step, hm], by simp [absStep, hl], ?_⟩
      exact rel_append hr ⟨(holds_ofList hm).1, .inl (holds_ofList hm).2⟩
  | mkEmpty junk =>
    right
    refine ⟨_, _, none, rfl, rfl, rel_append hr ⟨⟨rfl, by simp, by simp⟩, .inl rfl⟩⟩
  | copy i =>
    rcases rel_get hr i with ⟨h1, h2⟩ | ⟨m, l, h1, h2, hg⟩
    · left; simp [step, absStep, h1, h2]
    · right
      exact ⟨s ++ [m], t ++ [l], none, by simp [step, h1], by simp [absStep, h2], rel_append hr hg⟩
  | assign i j =>
    rcases rel_get hr i with ⟨h1, h2⟩ | ⟨mi, li, h1, h2, hgi⟩
    · left; simp [step, absStep, h1, h2]
    · rcases rel_get hr j with ⟨h3, h4⟩ | ⟨mj, lj, h3, h4, hgj⟩
      · left; simp [step, absStep, h1, h2, h3, h4]
      · right
        by_cases hij : i = j
        · subst hij
          refine ⟨s, t.set i lj, none, by simp [step, h1], by simp [absStep, h4], ?_⟩
          have : t.set i lj = t := by
            rw [h4] at h2; cases h2
            apply List.ext_getElem (by simp)
            intro k hk hk'
            rw [List.getElem_set]
            split
            · rename_i hik; subst hik
              rw [List.getElem?_eq_getElem hk'] at h4
              exact (Option.some.inj h4).symm
            · rfl
          rw [this]; exact hr
        · refine ⟨s.set i mj, t.set i lj, none, by simp [step, h1, h3, hij],
            by simp [absStep, h2, h4], rel_set hr i hgj⟩
  | hash i =>
    rcases rel_get hr i with ⟨h1, h2⟩ | ⟨m, l, h1, h2, hg⟩
    · left; simp [step, absStep, h1, h2]
    · right
      obtain ⟨m', hm, hg'⟩ := hash_spec h hg
      refine ⟨s.set i m', t, some (specHash h l), by simp [step, h1, hm], by simp [absStep, h2], ?_⟩
      have : t = t.set i l := by
        apply List.ext_getElem (by simp)
        intro k hk hk'
        rw [List.getElem_set]
        split
        · rename_i hik; subst hik
          rw [List.getElem?_eq_getElem hk] at h2
          exact Option.some.inj h2
        · rfl
      rw [this]
      exact rel_set hr i hg'

/-- **C02** For every history of constructions, copies, assignments and `hash()` calls the store of ids
behaves exactly like a store of plain lists whose hash is the fixed function `specHash` of the list: the
same histories are defined, and every `hash()` call returns the value the specification demands. -/
theorem C02_history_refines (h : Word → Word) (ops : List Op) :
    ∀ s t, Rel h s t → (run h s ops).map (·.2) = (absRun h t ops).map (·.2) ∧
      ∀ s' o, run h s ops = some (s', o) → ∃ t', absRun h t ops = some (t', o) ∧ Rel h s' t' := by
  induction ops with
  | nil =>
    intro s t hr
    refine ⟨rfl, ?_⟩
    intro s' o ho
    simp [run] at ho
    exact ⟨t, by simp [absRun, ho.2], ho.1 ▸ hr⟩
  | cons op ops ih =>
    intro s t hr
    rcases step_refines h hr op with ⟨h1, h2⟩ | ⟨s1, t1, o, h1, h2, hr'⟩
    · simp [run, absRun, h1, h2]
    · have ih' := ih s1 t1 hr'
      constructor
      · simp only [run, absRun, h1, h2, Option.bind_eq_bind, Option.bind_some]
        have := ih'.1
        cases hrun : run h s1 ops <;> cases habs : absRun h t1 ops <;> simp_all
      · intro s' os hs
        simp only [run, h1, Option.bind_eq_bind, Option.bind_some] at hs
        cases hrun : run h s1 ops with
        | none => simp [hrun] at hs
        | some p =>
          obtain ⟨s2, o2⟩ := p
          simp only [hrun, Option.bind_some, Option.some.injEq, Prod.mk.injEq] at hs
          obtain ⟨t', ht', hrel⟩ := ih'.2 s2 o2 hrun
          refine ⟨t', ?_, hs.1 ▸ hrel⟩
          simp [absRun, h2, ht', ← hs.2]

/-- **C02** After any history, two id objects that compare equal return the same hash value, whatever was
copied, assigned or hashed before; in particular a cached value is never stale. -/
theorem C02_equal_ids_equal_hash (h : Word → Word) (ops : List Op) {s : List MId} {o : List Word}
    (hrun : run h [] ops = some (s, o)) {i j : Nat} {a b : MId}
    (ha : s[i]? = some a) (hb : s[j]? = some b) (hab : eq a b = some true) :
    ∃ v a' b', MultiId.hash h a = some (v, a') ∧ MultiId.hash h b = some (v, b') := by
  obtain ⟨t, _, hr⟩ := (C02_history_refines h ops [] [] ⟨rfl, by simp⟩).2 s o hrun
  rcases rel_get hr i with ⟨h1, _⟩ | ⟨a1, la, h1, _, hga⟩
  · simp [h1] at ha
  rcases rel_get hr j with ⟨h2, _⟩ | ⟨b1, lb, h2, _, hgb⟩
  · simp [h2] at hb
  rw [ha] at h1; cases h1
  rw [hb] at h2; cases h2
  have hl : la = lb := by
    unfold eq at hab
    by_cases hlen : la.length = lb.length
    · simp only [hga.1.1, hgb.1.1, hlen, ne_eq, not_true_eq_false, if_false] at hab
      rw [eqFrom_spec hga.1 hgb.1 hlen _ 0 (by omega)] at hab
      simpa using hab
    · simp [hga.1.1, hgb.1.1, hlen] at hab
  subst hl
  obtain ⟨a', ha', _⟩ := hash_spec h hga
  obtain ⟨b', hb', _⟩ := hash_spec h hgb
  exact ⟨_, a', b', ha', hb'⟩

/-- A history in which an object is hashed, copied, overwritten and hashed again. -/
example : (run id [] [.mk (fun _ => 9) [5, 7], .hash 0, .copy 0, .mk (fun _ => 1) [1, 2, 3], .assign 0 2,
    .hash 0, .hash 1]).map (·.2) = some [11, 9, 11] := by decide

end Verif.MultiId
