import Mathlib.Data.List.Induction
import Verif.Components.Model

/-!
# C24: overlapping conflict zones share one component
-/

namespace Verif.Components

/-! ## Specification -/

/-- The conflict zones of two requests overlap. -/
def Overlap (zones : List (List Nat)) (i j : Nat) : Prop :=
  ∃ zi zj, zones[i]? = some zi ∧ zones[j]? = some zj ∧ ∃ c, c ∈ zi ∧ c ∈ zj

/-- Two requests are linked by a chain of requests with overlapping conflict zones. -/
def Linked (zones : List (List Nat)) : Nat → Nat → Prop := Relation.ReflTransGen (Overlap zones)

/-! ## Proofs -/

/-- Two cells are linked by a chain of zones. -/
def CellLink (zones : List (List Nat)) : Nat → Nat → Prop :=
  Relation.ReflTransGen (fun a b => ∃ z ∈ zones, a ∈ z ∧ b ∈ z)

theorem cellLink_linked {zones : List (List Nat)} {c c' : Nat} (h : CellLink zones c c') :
    ∀ {i zi}, zones[i]? = some zi → c ∈ zi → ∀ {j zj}, zones[j]? = some zj → c' ∈ zj → Linked zones i j := by
  induction h with
  | refl =>
    intro i zi hi hc j zj hj hc'
    exact Relation.ReflTransGen.single ⟨zi, zj, hi, hj, _, hc, hc'⟩
  | tail _ hab ih =>
    intro i zi hi hc j zj hj hc'
    obtain ⟨z, hz, ha, hb⟩ := hab
    obtain ⟨k, hk, hkz⟩ := List.mem_iff_getElem.1 hz
    have hk' : zones[k]? = some z := by rw [List.getElem?_eq_getElem hk, hkz]
    exact (ih hi hc hk' ha).tail ⟨z, zj, hk', hj, _, hb, hc'⟩

theorem search_spec (num : Nat → Nat) (l : List Nat) :
    ((search num l).1 = 0 → (search num l).2 = false ∧ ∀ c ∈ l, num c = 0) ∧
    ((search num l).1 ≠ 0 → (∃ c ∈ l, num c = (search num l).1) ∧ ∀ c ∈ l, num c ≠ 0 → (search num l).1 ≤ num c) ∧
    ((search num l).2 = false → ∀ c ∈ l, num c ≠ 0 → num c = (search num l).1) ∧
    ((search num l).2 = true → ∃ c ∈ l, (search num l).1 < num c) := by
  induction l using List.reverseRecOn with
  | nil => simp [search]
  | append_singleton l e ih =>
    have hs : search num (l ++ [e]) = if num e > 0 then
        if (search num l).1 ≠ 0 ∧ num e ≠ (search num l).1 then (min (num e) (search num l).1, true)
        else (num e, (search num l).2) else search num l := by
      simp [search, List.foldl_append]
    obtain ⟨h1, h2, h3, h4⟩ := ih
    rw [hs]
    generalize search num l = r at *
    simp only [List.mem_append, List.mem_singleton]
    by_cases he : num e > 0
    · rw [if_pos he]
      by_cases hr : r.1 ≠ 0 ∧ num e ≠ r.1
      · rw [if_pos hr]
        obtain ⟨⟨c0, hc0, hc0n⟩, hmin⟩ := h2 hr.1
        have hr1 := hr.1
        have hr2 := hr.2
        refine ⟨fun h => ?_, fun _ => ⟨?_, ?_⟩, fun h => ?_, fun _ => ?_⟩
        · simp only at h; omega
        · rcases Nat.lt_or_gt_of_ne hr.2 with hlt | hlt
          · exact ⟨e, Or.inr rfl, by simp only; omega⟩
          · exact ⟨c0, Or.inl hc0, by simp only; omega⟩
        · rintro c (hc | rfl) hne
          · have := hmin c hc hne
            simp only; omega
          · simp only; omega
        · simp at h
        · rcases Nat.lt_or_gt_of_ne hr.2 with hlt | hlt
          · exact ⟨c0, Or.inl hc0, by simp only; omega⟩
          · exact ⟨e, Or.inr rfl, by simp only; omega⟩
      · rw [if_neg hr]
        have hr' : r.1 = 0 ∨ num e = r.1 := by omega
        refine ⟨fun h => ?_, fun _ => ⟨⟨e, Or.inr rfl, rfl⟩, ?_⟩, fun h => ?_, fun h => ?_⟩
        · simp only at h; omega
        · rintro c (hc | rfl) hne
          · rcases hr' with h0 | h0
            · exact absurd ((h1 h0).2 c hc) hne
            · have := (h2 (by omega)).2 c hc hne
              simp only; omega
          · exact Nat.le_refl _
        · rintro c (hc | rfl) hne
          · rcases hr' with h0 | h0
            · exact absurd ((h1 h0).2 c hc) hne
            · simp only; rw [h0]; exact h3 h c hc hne
          · rfl
        · rcases hr' with h0 | h0
          · have := (h1 h0).1
            simp only at h
            rw [this] at h
            exact absurd h (by simp)
          · obtain ⟨c, hc, hlt⟩ := h4 h
            exact ⟨c, Or.inl hc, by simp only; omega⟩
    · rw [if_neg he]
      have he0 : num e = 0 := by omega
      refine ⟨fun h => ⟨(h1 h).1, ?_⟩, fun h => ⟨?_, ?_⟩, fun h => ?_, fun h => ?_⟩
      · rintro c (hc | rfl)
        · exact (h1 h).2 c hc
        · exact he0
      · obtain ⟨c, hc, hcn⟩ := (h2 h).1
        exact ⟨c, Or.inl hc, hcn⟩
      · rintro c (hc | rfl) hne
        · exact (h2 h).2 c hc hne
        · exact absurd he0 hne
      · rintro c (hc | rfl) hne
        · exact h3 h c hc hne
        · exact absurd he0 hne
      · obtain ⟨c, hc, hlt⟩ := h4 h
        exact ⟨c, Or.inl hc, hlt⟩

/-- The cells of the requests. -/
def Cells (zones : List (List Nat)) (c : Nat) : Prop := ∃ z ∈ zones, c ∈ z

/-- Cells of requests with the same number are linked; new numbers are unused. -/
structure Inv (zones : List (List Nat)) (s : State) : Prop where
  link : ∀ c c', Cells zones c → Cells zones c' → s.num c = s.num c' → s.num c ≠ 0 → CellLink zones c c'
  lt : ∀ c, Cells zones c → s.num c < s.count

theorem markZone_inv {zones : List (List Nat)} {s : State} (h : Inv zones s) {z : List Nat} (hz : z ∈ zones) :
    Inv zones (markZone s z).1 := by
  obtain ⟨h1, h2, -, -⟩ := search_spec s.num z
  have hcell : ∀ c ∈ z, Cells zones c := fun c hc => ⟨z, hz, hc⟩
  have key : ∀ c ∈ z, ∀ c', Cells zones c' → c' ∉ z →
      s.num c' = (if (search s.num z).1 = 0 then s.count else (search s.num z).1) → CellLink zones c c' := by
    intro c hc c' hc' _ hk
    by_cases h0 : (search s.num z).1 = 0
    · rw [if_pos h0] at hk
      have := h.lt c' hc'
      omega
    · rw [if_neg h0] at hk
      obtain ⟨e, he, hen⟩ := (h2 h0).1
      exact Relation.ReflTransGen.head ⟨z, hz, hc, he⟩ (h.link e c' (hcell e he) hc' (by omega) (by omega))
  have symm : ∀ {a b}, CellLink zones a b → CellLink zones b a := by
    intro a b hab
    induction hab with
    | refl => exact Relation.ReflTransGen.refl
    | tail _ hxy ih =>
      obtain ⟨w, hw, hx, hy⟩ := hxy
      exact Relation.ReflTransGen.head ⟨w, hw, hy, hx⟩ ih
  constructor
  · intro c c' hc hc' heq hne
    simp only [markZone] at heq hne
    by_cases hcz : c ∈ z <;> by_cases hcz' : c' ∈ z
    · exact Relation.ReflTransGen.single ⟨z, hz, hcz, hcz'⟩
    · rw [if_pos hcz, if_neg hcz'] at heq
      exact key c hcz c' hc' hcz' heq.symm
    · rw [if_neg hcz, if_pos hcz'] at heq
      exact symm (key c' hcz' c hc hcz heq)
    · rw [if_neg hcz, if_neg hcz'] at heq
      rw [if_neg hcz] at hne
      exact h.link c c' hc hc' heq hne
  · intro c hc
    have := h.lt c hc
    simp only [markZone]
    by_cases h0 : (search s.num z).1 = 0
    · simp only [h0, if_true]
      split <;> omega
    · simp only [h0, if_false]
      split
      · obtain ⟨e, he, hen⟩ := (h2 h0).1
        have := h.lt e (hcell e he)
        omega
      · exact this

theorem markZone_pos {s : State} (hs : 0 < s.count) (z : List Nat) : 0 < (markZone s z).2.2 := by
  simp only [markZone]
  split <;> omega

theorem markZone_count {s : State} (z : List Nat) : s.count ≤ (markZone s z).1.count := by
  simp only [markZone]
  split <;> omega

theorem sweep_inv {zones : List (List Nat)} (zs : List (List Nat)) (hzs : ∀ z ∈ zs, z ∈ zones) {s : State}
    (h : Inv zones s) : Inv zones (sweep s zs).1 := by
  induction zs generalizing s with
  | nil => exact h
  | cons z zs ih =>
    exact ih (fun w hw => hzs w (List.mem_cons_of_mem _ hw)) (markZone_inv h (hzs z List.mem_cons_self))

/-- Numbers of cells stay positive, and cells of the marked zones become positive. -/
theorem sweep_pos (zs : List (List Nat)) {s : State} (hs : 0 < s.count) (c : Nat) (hc : 0 < s.num c ∨ Cells zs c) :
    0 < (sweep s zs).1.num c ∧ 0 < (sweep s zs).1.count := by
  induction zs generalizing s with
  | nil =>
    rcases hc with hc | ⟨z, hz, -⟩
    · exact ⟨hc, hs⟩
    · simp at hz
  | cons z zs ih =>
    have hcount := Nat.lt_of_lt_of_le hs (markZone_count (s := s) z)
    apply ih hcount
    by_cases hcz : c ∈ z
    · left
      have := markZone_pos hs z
      simp only [markZone] at this ⊢
      rw [if_pos hcz]
      exact this
    · rcases hc with hc | ⟨w, hw, hcw⟩
      · left
        simp only [markZone]
        rw [if_neg hcz]
        exact hc
      · rcases List.mem_cons.1 hw with rfl | hw
        · exact absurd hcw hcz
        · exact Or.inr ⟨w, hw, hcw⟩

/-- In a pass over cells that all carry numbers, numbers do not grow, and the pass asks for another one only if some
number became smaller. -/
theorem sweep_decreases {zones : List (List Nat)} (zs : List (List Nat)) (hzs : ∀ z ∈ zs, z ∈ zones) {s : State}
    (hpos : ∀ c, Cells zones c → 0 < s.num c) :
    (∀ c, Cells zones c → (sweep s zs).1.num c ≤ s.num c) ∧
      ((sweep s zs).2.1 = true → ∃ c, Cells zones c ∧ (sweep s zs).1.num c < s.num c) := by
  induction zs generalizing s with
  | nil => exact ⟨fun _ _ => Nat.le_refl _, fun h => by simp [sweep] at h⟩
  | cons z zs ih =>
    have hz : z ∈ zones := hzs z List.mem_cons_self
    have hcell : ∀ c ∈ z, Cells zones c := fun c hc => ⟨z, hz, hc⟩
    obtain ⟨h1, h2, -, h4⟩ := search_spec s.num z
    have hstep : ∀ c, Cells zones c → (markZone s z).1.num c ≤ s.num c ∧ 0 < (markZone s z).1.num c := by
      intro c hc
      simp only [markZone]
      by_cases hcz : c ∈ z
      · rw [if_pos hcz]
        have hc0 := hpos c hc
        by_cases h0 : (search s.num z).1 = 0
        · have := (h1 h0).2 c hcz
          omega
        · rw [if_neg h0]
          have := (h2 h0).2 c hcz (by omega)
          omega
      · rw [if_neg hcz]
        exact ⟨Nat.le_refl _, hpos c hc⟩
    obtain ⟨i1, i2⟩ := ih (fun w hw => hzs w (List.mem_cons_of_mem _ hw)) (fun c hc => (hstep c hc).2)
    refine ⟨fun c hc => Nat.le_trans (i1 c hc) (hstep c hc).1, fun h => ?_⟩
    simp only [sweep, Bool.or_eq_true] at h
    rcases h with h | h
    · obtain ⟨c, hcz, hlt⟩ := h4 h
      refine ⟨c, hcell c hcz, Nat.lt_of_le_of_lt (i1 c (hcell c hcz)) ?_⟩
      have hc0 := hpos c (hcell c hcz)
      simp only [markZone]
      rw [if_pos hcz, if_neg]
      · exact hlt
      · intro h0
        have := (h1 h0).2 c hcz
        omega
    · obtain ⟨c, hc, hlt⟩ := i2 h
      exact ⟨c, hc, Nat.lt_of_lt_of_le hlt (hstep c hc).1⟩

theorem sum_lt (l : List Nat) (f g : Nat → Nat) (hle : ∀ c ∈ l, f c ≤ g c) (hlt : ∃ c ∈ l, f c < g c) :
    (l.map f).sum < (l.map g).sum := by
  induction l with
  | nil => obtain ⟨c, hc, -⟩ := hlt; simp at hc
  | cons a l ih =>
    simp only [List.map_cons, List.sum_cons]
    have ha := hle a List.mem_cons_self
    have hsum : (l.map f).sum ≤ (l.map g).sum := by
      clear ih hlt ha
      induction l with
      | nil => simp
      | cons b l ih =>
        simp only [List.map_cons, List.sum_cons]
        have := hle b (by simp)
        have := ih (fun c hc => hle c (by
          rcases List.mem_cons.1 hc with rfl | hc
          · simp
          · simp [hc]))
        omega
    obtain ⟨c, hc, hclt⟩ := hlt
    rcases List.mem_cons.1 hc with rfl | hc
    · omega
    · have := ih (fun c hc => hle c (List.mem_cons_of_mem _ hc)) ⟨c, hc, hclt⟩
      omega

theorem terminates_pos (zones : List (List Nat)) (n : Nat) (s : State)
    (hpos : ∀ c, Cells zones c → 0 < s.num c) (hcount : 0 < s.count) (hn : (zones.flatten.map s.num).sum ≤ n) :
    ∃ s' ids, Marking zones s s' ids := by
  induction n generalizing s with
  | zero =>
    cases h : (sweep s zones).2.1 with
    | false => exact ⟨_, _, .done h⟩
    | true =>
      obtain ⟨h1, h2⟩ := sweep_decreases zones (fun _ hz => hz) hpos
      obtain ⟨c, hc, hlt⟩ := h2 h
      have := sum_lt zones.flatten (sweep s zones).1.num s.num (fun c hc => h1 c (by simpa [Cells] using hc))
        ⟨c, by simpa [Cells] using hc, hlt⟩
      omega
  | succ n ih =>
    cases h : (sweep s zones).2.1 with
    | false => exact ⟨_, _, .done h⟩
    | true =>
      obtain ⟨h1, h2⟩ := sweep_decreases zones (fun _ hz => hz) hpos
      obtain ⟨c, hc, hlt⟩ := h2 h
      have := sum_lt zones.flatten (sweep s zones).1.num s.num (fun c hc => h1 c (by simpa [Cells] using hc))
        ⟨c, by simpa [Cells] using hc, hlt⟩
      have hp := sweep_pos zones hcount
      obtain ⟨s', ids, hm⟩ := ih (sweep s zones).1 (fun c hc => (hp c (Or.inl (hpos c hc))).1)
        (hp c (Or.inl (hpos c hc))).2 (by omega)
      exact ⟨s', ids, .again h hm⟩

theorem count_pos (zs : List (List Nat)) {s : State} (hs : 0 < s.count) : 0 < (sweep s zs).1.count := by
  induction zs generalizing s with
  | nil => exact hs
  | cons z zs ih => exact ih (Nat.lt_of_lt_of_le hs (markZone_count z))

theorem terminates (zones : List (List Nat)) (s : State) (hcount : 0 < s.count) : ∃ s' ids, Marking zones s s' ids := by
  cases h : (sweep s zones).2.1 with
  | false => exact ⟨_, _, .done h⟩
  | true =>
    obtain ⟨s', ids, hm⟩ := terminates_pos zones _ (sweep s zones).1 (fun c hc => (sweep_pos zones hcount c (Or.inr hc)).1)
      (count_pos zones hcount) (Nat.le_refl _)
    exact ⟨s', ids, .again h hm⟩

/-- A pass without conflict keeps the numbers it finds and records the number of each zone. -/
theorem sweep_quiet (zs : List (List Nat)) {s : State} (hcount : 0 < s.count) (h : (sweep s zs).2.1 = false) :
    (∀ c, 0 < s.num c → (sweep s zs).1.num c = s.num c) ∧ (sweep s zs).2.2.length = zs.length ∧
      ∀ (i : Nat) (z : List Nat), zs[i]? = some z → ∃ k, (sweep s zs).2.2[i]? = some k ∧
        ∀ c ∈ z, (sweep s zs).1.num c = k + 1 := by
  induction zs generalizing s with
  | nil => simp [sweep]
  | cons z zs ih =>
    simp only [sweep, Bool.or_eq_false_iff] at h
    obtain ⟨i1, i2, i3⟩ := ih (Nat.lt_of_lt_of_le hcount (markZone_count z)) h.2
    obtain ⟨h1, h2, h3, -⟩ := search_spec s.num z
    have hq : ∀ c, 0 < s.num c → (markZone s z).1.num c = s.num c := by
      intro c hc
      simp only [markZone]
      by_cases hcz : c ∈ z
      · rw [if_pos hcz]
        have heq := h3 h.1 c hcz (by omega)
        rw [if_neg (by omega)]
        exact heq.symm
      · rw [if_neg hcz]
    refine ⟨?_, by simp [sweep, i2], ?_⟩
    · intro c hc
      simp only [sweep]
      rw [i1 c (by rw [hq c hc]; exact hc), hq c hc]
    · intro i w hw
      cases i with
      | zero =>
        simp only [List.getElem?_cons_zero, Option.some.injEq] at hw
        subst hw
        refine ⟨(markZone s z).2.2 - 1, by simp [sweep], ?_⟩
        intro c hc
        have hk := markZone_pos hcount z
        have hn : (markZone s z).1.num c = (markZone s z).2.2 := by
          simp only [markZone]
          rw [if_pos hc]
        simp only [sweep]
        rw [i1 c (by omega), hn]
        omega
      | succ i =>
        obtain ⟨k, hk, hkc⟩ := i3 i w (by simpa using hw)
        exact ⟨k, by simpa [sweep] using hk, fun c hc => hkc c hc⟩

theorem marking_final {zones : List (List Nat)} {s s' : State} {ids : List Nat} (hm : Marking zones s s' ids)
    (hcount : 0 < s.count) (hinv : Inv zones s) :
    Inv zones s' ∧ ids.length = zones.length ∧
      ∀ (i : Nat) (z : List Nat), zones[i]? = some z → ∃ k, ids[i]? = some k ∧ ∀ c ∈ z, s'.num c = k + 1 := by
  induction hm with
  | done h =>
    obtain ⟨-, h2, h3⟩ := sweep_quiet zones hcount h
    exact ⟨sweep_inv zones (fun _ hz => hz) hinv, h2, h3⟩
  | again h _ ih => exact ih (count_pos zones hcount) (sweep_inv zones (fun _ hz => hz) hinv)

theorem marking_unique {zones : List (List Nat)} {s s' : State} {ids : List Nat} (hm : Marking zones s s' ids)
    {s'' : State} {ids' : List Nat} (hm' : Marking zones s s'' ids') : s'' = s' ∧ ids' = ids := by
  induction hm with
  | done h =>
    cases hm' with
    | done _ => exact ⟨rfl, rfl⟩
    | again h' _ => rw [h] at h'; cases h'
  | again h _ ih =>
    cases hm' with
    | done h' => rw [h] at h'; cases h'
    | again _ hm' => exact ih hm'

/-- C24, termination: whatever numbers the cells carry, the marking ends. -/
theorem C24_terminates (zones : List (List Nat)) (s : State) (n : Nat) :
    ∃ s' ids, Marking zones (start s n) s' ids ∧
      ∀ s'' ids', Marking zones (start s n) s'' ids' → s'' = s' ∧ ids' = ids := by
  obtain ⟨s', ids, hm⟩ := terminates zones (start s n) (by simp [start])
  exact ⟨s', ids, hm, fun _ _ h => marking_unique hm h⟩

/-- The first two requests only meet through the last one, the third stays alone. -/
def exZones : List (List Nat) := [[1, 2], [3, 4], [7, 8], [4, 5, 1]]

/-- C24: if no cell of a request carries a number from before, the marking ends, and then two requests carry the same
component id exactly when they are linked by a chain of overlapping requests. Every cell of a request then carries the
number of its component. Cells with numbers from before are the subject of `C108_second_adapt_false`. -/
theorem C24_linked (zones : List (List Nat)) (s : State) (n : Nat) (hne : ∀ z ∈ zones, z ≠ [])
    (hzero : ∀ z ∈ zones, ∀ c ∈ z, s.num c = 0) :
    ∃ s' ids, Marking zones (start s n) s' ids ∧ ids.length = zones.length ∧
      (∀ i j (hi : i < ids.length) (hj : j < ids.length), ids[i] = ids[j] ↔ Linked zones i j) ∧
      ∀ (i : Nat) (z : List Nat), zones[i]? = some z → ∀ c ∈ z, ∀ k, ids[i]? = some k → s'.num c = k + 1 := by
  obtain ⟨s', ids, hm⟩ := terminates zones (start s n) (by simp [start])
  have hinv : Inv zones (start s n) := by
    constructor
    · rintro c c' ⟨z, hz, hc⟩ - - h
      exact absurd (hzero z hz c hc) h
    · rintro c ⟨z, hz, hc⟩
      have := hzero z hz c hc
      simp only [start]
      omega
  obtain ⟨h1, h2, h3⟩ := marking_final hm (by simp [start]) hinv
  refine ⟨s', ids, hm, h2, ?_, ?_⟩
  · intro i j hi hj
    have hzi := List.getElem?_eq_getElem (h2 ▸ hi)
    have hzj := List.getElem?_eq_getElem (h2 ▸ hj)
    constructor
    · intro heq
      obtain ⟨ki, hki, hci⟩ := h3 i _ hzi
      obtain ⟨kj, hkj, hcj⟩ := h3 j _ hzj
      rw [List.getElem?_eq_getElem hi, Option.some.injEq] at hki
      rw [List.getElem?_eq_getElem hj, Option.some.injEq] at hkj
      obtain ⟨ci, hmi⟩ := List.exists_mem_of_ne_nil _ (hne _ (List.getElem_mem (h2 ▸ hi)))
      obtain ⟨cj, hmj⟩ := List.exists_mem_of_ne_nil _ (hne _ (List.getElem_mem (h2 ▸ hj)))
      have ei := hci ci hmi
      have ej := hcj cj hmj
      exact cellLink_linked (h1.link ci cj ⟨_, List.getElem_mem (h2 ▸ hi), hmi⟩ ⟨_, List.getElem_mem (h2 ▸ hj), hmj⟩
        (by omega) (by omega)) hzi hmi hzj hmj
    · intro hl
      clear hzi hzj
      have : ids[i]? = ids[j]? := by
        clear hi hj
        induction hl with
        | refl => rfl
        | tail _ hab ih =>
          rw [ih]
          obtain ⟨za, zb, ha, hb, c, hca, hcb⟩ := hab
          obtain ⟨ka, hka, hna⟩ := h3 _ za ha
          obtain ⟨kb, hkb, hnb⟩ := h3 _ zb hb
          have e1 := hna c hca
          have e2 := hnb c hcb
          rw [hka, hkb]
          congr 1
          omega
      rw [List.getElem?_eq_getElem hi, List.getElem?_eq_getElem hj, Option.some.injEq] at this
      exact this
  · intro i z hz c hc k hk
    obtain ⟨k', hk', hn⟩ := h3 i z hz
    rw [hk, Option.some.injEq] at hk'
    rw [hn c hc, hk']

/-- The hypotheses of `C24_linked` hold for the requests of `exZones` on a fresh grid; three passes are needed. -/
example : (∀ z ∈ exZones, z ≠ []) ∧ (∀ z ∈ exZones, ∀ c ∈ z, init.num c = 0) ∧
    (sweep (start init 0) exZones).2.1 = true ∧
    (sweep (sweep (start init 0) exZones).1 exZones).2.1 = true ∧
    (sweep (sweep (sweep (start init 0) exZones).1 exZones).1 exZones).2 = (false, [0, 0, 2, 0]) := by
  refine ⟨by decide, fun _ _ _ _ => rfl, by decide, by decide, by decide⟩

/-- Sequences of adaptation cycles: in each cycle requests are marked and, after the mesh has been changed, `postAdapt`
resets the leaf elements of that moment. -/
inductive Cycles : List (List (List Nat) × List Nat) → State → Prop
  | nil : Cycles [] init
  | cycle {h s s' ids zones leaf} : Cycles h s → Marking zones (start s 0) s' ids →
      Cycles (h ++ [(zones, leaf)]) (postAdapt s' leaf)

/-- After any number of cycles the leaf elements of the last cycle carry no number, so `C24_linked` applies to
requests whose zones consist of such elements. -/
theorem C24_cycles {h : List (List (List Nat) × List Nat)} {s : State} {zones : List (List Nat)} {leaf : List Nat}
    (hc : Cycles (h ++ [(zones, leaf)]) s) (c : Nat) (hleaf : c ∈ leaf) : s.num c = 0 := by
  generalize hh : h ++ [(zones, leaf)] = l at hc
  cases hc with
  | nil => simp at hh
  | cycle _ _ =>
    have := (List.append_inj' hh rfl).2
    simp only [List.cons.injEq, Prod.mk.injEq, and_true] at this
    obtain ⟨-, rfl⟩ := this
    simp [postAdapt, hleaf]

/-- C108 is false from the second cycle on if a request touches the boundary: the infinite cell 100 at the boundary edge
between the cells 0 and 100 got the number 1 in the first cycle, and `postAdapt` does not reset infinite cells. (The host
grid keeps the infinite cell when it inserts a vertex in the edge.) In the second cycle the new request [5, 6] is given the
number 1 as well. -/
theorem C108_second_adapt_false :
    ¬ ∀ (h : List (List (List Nat) × List Nat)) (s s' : State) (ids : List Nat) (zones : List (List Nat)),
      Cycles h s → (∀ z ∈ zones, z ≠ []) → Marking zones (start s 0) s' ids →
      ∀ i j (hi : i < ids.length) (hj : j < ids.length), ids[i] = ids[j] → Linked zones i j := by
  intro h
  have h1 : Marking [[0, 100]] (start init 0) _ _ := .done (by decide)
  have hc := Cycles.cycle (leaf := [0, 1, 2, 3, 4, 5, 6]) Cycles.nil h1
  have h2 : Marking [[5, 6], [2, 100]] (start (postAdapt (sweep (start init 0) [[0, 100]]).1 [0, 1, 2, 3, 4, 5, 6]) 0) _ _ :=
    .done (by decide)
  have := h _ _ _ _ [[5, 6], [2, 100]] hc (by decide) h2 0 1 (by decide) (by decide) (by decide)
  have key : ∀ j, Linked [[5, 6], [2, 100]] 0 j → j = 0 := by
    intro j hj
    induction hj with
    | refl => rfl
    | tail _ hab ih =>
      subst ih
      obtain ⟨za, zb, ha, hb, c, hca, hcb⟩ := hab
      simp only [List.getElem?_cons_zero, Option.some.injEq] at ha
      subst ha
      rename_i b _
      match b, hb with
      | 0, _ => rfl
      | 1, hb =>
        simp only [List.getElem?_cons_succ, List.getElem?_cons_zero, Option.some.injEq] at hb
        subst hb
        simp only [List.mem_cons, List.not_mem_nil, or_false] at hca hcb
        omega
      | n + 2, hb => simp at hb
  exact absurd (key 1 this) (by decide)

end Verif.Components
