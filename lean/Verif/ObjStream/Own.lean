import Mathlib.Data.List.Basic
import Verif.ObjStream.Model

/-!
# C39: who frees the buffers
-/

namespace Verif.ObjStream

/-! ## Specification: streams that exist, and streams that have been copied from -/

/-- Streams that exist, and streams that were the source of a copy or an assignment and have not been given a new value
since. -/
structure Usage where
  live : List Nat
  spent : List Nat

/-- Removal of a name. -/
def without (l : List Nat) (i : Nat) : List Nat := l.filter (· ≠ i)

/-- A call is used properly: objects exist, and a stream that was copied from is not read, written or copied again before
it is assigned or reset. -/
def Usage.step (u : Usage) : OwnOp → Option Usage
  | .create i => if i ∉ u.live then some ⟨i :: u.live, without u.spent i⟩ else none
  | .copy i j => if i ∉ u.live ∧ j ∈ u.live ∧ j ∉ u.spent then some ⟨i :: u.live, j :: without u.spent i⟩ else none
  | .assign i j => if i ∈ u.live ∧ j ∈ u.live ∧ j ∉ u.spent then some ⟨u.live, j :: without u.spent i⟩ else none
  | .write i _ => if i ∈ u.live ∧ i ∉ u.spent then some u else none
  | .read i => if i ∈ u.live ∧ i ∉ u.spent then some u else none
  | .reset i => if i ∈ u.live then some ⟨u.live, without u.spent i⟩ else none
  | .destroy i => if i ∈ u.live then some ⟨without u.live i, without u.spent i⟩ else none

/-- Several calls. -/
def Usage.run : List OwnOp → Usage → Option Usage
  | [], u => some u
  | op :: ops, u => (u.step op).bind (Usage.run ops)

/-! ## Proofs -/

theorem find_filter (l : List (Nat × Obj)) {i k : Nat} (h : k ≠ i) :
    (l.filter fun p => decide (p.1 ≠ i)).find? (fun p => decide (p.1 = k)) = l.find? fun p => decide (p.1 = k) := by
  induction l with
  | nil => rfl
  | cons p l ih =>
    by_cases hp : p.1 = i
    · rw [List.filter_cons_of_neg (by simp [hp]), ih, List.find?_cons_of_neg]
      simp only [hp, decide_eq_true_eq]
      exact fun e => h e.symm
    · rw [List.filter_cons_of_pos (by simp [hp])]
      by_cases hk : p.1 = k
      · rw [List.find?_cons_of_pos (by simp [hk]), List.find?_cons_of_pos (by simp [hk])]
      · rw [List.find?_cons_of_neg (by simp [hk]), List.find?_cons_of_neg (by simp [hk]), ih]

theorem get_set (w : World) (i : Nat) (o : Obj) (k : Nat) : (w.set i o).get k = if k = i then some o else w.get k := by
  unfold World.get World.set
  by_cases h : k = i
  · subst h; simp
  · rw [if_neg h, List.find?_cons_of_neg (by simp; exact fun e => h e.symm), find_filter _ h]

/-- Removal of an object. -/
theorem get_erase (w : World) (i k : Nat) :
    World.get { w with objs := w.objs.filter fun p => p.1 ≠ i } k = if k = i then none else w.get k := by
  unfold World.get
  by_cases h : k = i
  · subst h
    rw [if_pos rfl]
    simp
  · rw [if_neg h]; simp only; rw [find_filter _ h]

theorem get_free {w : World} {l : List Nat} {n k : Nat} : World.get ⟨w.objs, l, n⟩ k = w.get k := rfl

/-- Every buffer that has not been freed has exactly one owner, and owners have buffers that have not been freed. -/
structure Inv (g : Nat → Option Obj) (freed : List Nat) (next : Nat) : Prop where
  uniq : ∀ i j b, g i = some ⟨some b, true⟩ → g j = some ⟨some b, true⟩ → i = j
  alive : ∀ i b, g i = some ⟨some b, true⟩ → b ∉ freed ∧ b < next
  leak : ∀ b < next, b ∉ freed → ∃ i, g i = some ⟨some b, true⟩
  nodup : freed.Nodup
  small : ∀ b ∈ freed, b < next

/-- The usage describes the objects. -/
structure Tracks (u : Usage) (w : World) : Prop where
  live : ∀ i, i ∈ u.live ↔ (w.get i).isSome
  spent : ∀ i o, w.get i = some o → o.owner = false → i ∈ u.spent
  inv : Inv w.get w.freed w.next

theorem mem_without {l : List Nat} {i k : Nat} : k ∈ without l i ↔ k ∈ l ∧ k ≠ i := by simp [without]

/-- Dropping the owner of nothing, or a stream that does not own, changes nothing. -/
theorem inv_drop {g : Nat → Option Obj} {freed : List Nat} {next : Nat} (h : Inv g freed next) {i : Nat} {o' : Option Obj}
    (hi : ∀ b, g i ≠ some ⟨some b, true⟩) (ho : ∀ b, o' ≠ some ⟨some b, true⟩) :
    Inv (fun k => if k = i then o' else g k) freed next := by
  constructor
  · intro a b c h1 h2
    split at h1
    · exact absurd h1 (ho c)
    · split at h2
      · exact absurd h2 (ho c)
      · exact h.uniq a b c h1 h2
  · intro a b h1
    split at h1
    · exact absurd h1 (ho b)
    · exact h.alive a b h1
  · intro b hb hf
    obtain ⟨k, hk⟩ := h.leak b hb hf
    refine ⟨k, ?_⟩
    rw [if_neg (show k ≠ i by rintro rfl; exact hi b hk)]
    exact hk
  · exact h.nodup
  · exact h.small

/-- The owner of a buffer frees it. -/
theorem inv_free {g : Nat → Option Obj} {freed : List Nat} {next : Nat} (h : Inv g freed next) {i b : Nat} {o' : Option Obj}
    (hi : g i = some ⟨some b, true⟩) (ho : ∀ b, o' ≠ some ⟨some b, true⟩) :
    Inv (fun k => if k = i then o' else g k) (b :: freed) next := by
  constructor
  · intro a a' c h1 h2
    split at h1
    · exact absurd h1 (ho c)
    · split at h2
      · exact absurd h2 (ho c)
      · exact h.uniq a a' c h1 h2
  · intro a c h1
    split at h1
    · exact absurd h1 (ho c)
    · rename_i hne
      have := h.alive a c h1
      refine ⟨?_, this.2⟩
      intro hm
      rcases List.mem_cons.1 hm with rfl | hm
      · exact hne (h.uniq a i c h1 hi)
      · exact this.1 hm
  · intro c hc hf
    obtain ⟨k, hk⟩ := h.leak c hc (fun hm => hf (List.mem_cons_of_mem _ hm))
    refine ⟨k, ?_⟩
    rw [if_neg]
    · exact hk
    · rintro rfl
      rw [hi] at hk
      simp only [Option.some.injEq, Obj.mk.injEq, and_true] at hk
      exact hf (by simp [hk])
  · exact List.nodup_cons.2 ⟨(h.alive i b hi).1, h.nodup⟩
  · intro c hc
    rcases List.mem_cons.1 hc with rfl | hc
    · exact (h.alive i c hi).2
    · exact h.small c hc

/-- A stream without buffer allocates one. -/
theorem inv_alloc {g : Nat → Option Obj} {freed : List Nat} {next : Nat} (h : Inv g freed next) {i : Nat}
    (hi : ∀ b, g i ≠ some ⟨some b, true⟩) :
    Inv (fun k => if k = i then some ⟨some next, true⟩ else g k) freed (next + 1) := by
  have hs : next ∉ freed := fun hm => Nat.lt_irrefl _ (h.small _ hm)
  have hg : ∀ k, g k ≠ some ⟨some next, true⟩ := fun k hk => Nat.lt_irrefl _ (h.alive k next hk).2
  constructor
  · intro a a' c h1 h2
    split at h1
    · simp only [Option.some.injEq, Obj.mk.injEq, and_true] at h1
      subst h1
      split at h2
      · rename_i e1 e2; exact e1.trans e2.symm
      · exact absurd h2 (hg a')
    · split at h2
      · simp only [Option.some.injEq, Obj.mk.injEq, and_true] at h2
        subst h2
        exact absurd h1 (hg a)
      · exact h.uniq a a' c h1 h2
  · intro a c h1
    split at h1
    · simp only [Option.some.injEq, Obj.mk.injEq, and_true] at h1
      subst h1
      exact ⟨hs, Nat.lt_succ_self _⟩
    · have := h.alive a c h1
      exact ⟨this.1, Nat.lt_succ_of_lt this.2⟩
  · intro c hc hf
    by_cases e : c = next
    · exact ⟨i, by simp [e]⟩
    · obtain ⟨k, hk⟩ := h.leak c (by omega) hf
      refine ⟨k, ?_⟩
      rw [if_neg (show k ≠ i by rintro rfl; exact hi c hk)]
      exact hk
  · exact h.nodup
  · intro c hc
    exact Nat.lt_succ_of_lt (h.small c hc)

/-- The ownership passes from `j` to `i`. -/
theorem inv_move {g : Nat → Option Obj} {freed : List Nat} {next : Nat} (h : Inv g freed next) {i j b : Nat} (hij : i ≠ j)
    (hi : ∀ b, g i ≠ some ⟨some b, true⟩) (hj : g j = some ⟨some b, true⟩) :
    Inv (fun k => if k = i then some ⟨some b, true⟩ else if k = j then some ⟨some b, false⟩ else g k) freed next := by
  have key : ∀ k c, (if k = i then some (⟨some b, true⟩ : Obj) else if k = j then some ⟨some b, false⟩ else g k) = some ⟨some c, true⟩ →
      (k = i ∧ c = b) ∨ (k ≠ i ∧ k ≠ j ∧ c ≠ b ∧ g k = some ⟨some c, true⟩) := by
    intro k c hk
    split at hk
    · rename_i e
      simp only [Option.some.injEq, Obj.mk.injEq, and_true] at hk
      exact Or.inl ⟨e, hk.symm⟩
    · split at hk
      · simp at hk
      · rename_i h1 h2
        refine Or.inr ⟨h1, h2, ?_, hk⟩
        rintro rfl
        exact h2 (h.uniq k j c hk hj)
  constructor
  · intro a a' c h1 h2
    rcases key a c h1 with ⟨rfl, rfl⟩ | ⟨_, _, h3, h4⟩
    · rcases key a' c h2 with ⟨rfl, _⟩ | ⟨_, _, h5, _⟩
      · rfl
      · exact absurd rfl h5
    · rcases key a' c h2 with ⟨_, rfl⟩ | ⟨_, _, _, h6⟩
      · exact absurd rfl h3
      · exact h.uniq a a' c h4 h6
  · intro a c h1
    rcases key a c h1 with ⟨rfl, rfl⟩ | ⟨_, _, _, h4⟩
    · exact h.alive j c hj
    · exact h.alive a c h4
  · intro c hc hf
    obtain ⟨k, hk⟩ := h.leak c hc hf
    by_cases e : k = j
    · subst e
      rw [hj] at hk
      simp only [Option.some.injEq, Obj.mk.injEq, and_true] at hk
      subst hk
      exact ⟨i, by simp⟩
    · refine ⟨k, ?_⟩
      rw [if_neg (show k ≠ i by rintro rfl; exact hi c hk), if_neg e]
      exact hk
  · exact h.nodup
  · exact h.small

theorem get_set_fun (w : World) (i : Nat) (o : Obj) : (w.set i o).get = fun k => if k = i then some o else w.get k :=
  funext (get_set w i o)

/-- After `removeObj` the stream has no buffer, and everything is still in order. -/
theorem removeObj_tracks {u : Usage} {w : World} (h : Tracks u w) {i : Nat} {o : Obj} (hi : w.get i = some o) :
    ∃ w', w.removeObj i o = .ok w' ∧ w'.get = (fun k => if k = i then some ⟨none, true⟩ else w.get k) ∧ Inv w'.get w'.freed w'.next := by
  obtain ⟨buf, owner⟩ := o
  unfold World.removeObj
  cases owner with
  | false =>
    refine ⟨_, rfl, get_set_fun _ _ _, ?_⟩
    rw [get_set_fun]
    exact inv_drop h.inv (by simp [hi]) (by simp)
  | true =>
    cases buf with
    | none =>
      refine ⟨_, rfl, get_set_fun _ _ _, ?_⟩
      rw [get_set_fun]
      exact inv_drop h.inv (by simp [hi]) (by simp)
    | some b =>
      have hb := (h.inv.alive i b hi).1
      simp only [World.free, if_neg hb, Res.bind]
      refine ⟨_, rfl, get_set_fun _ _ _, ?_⟩
      rw [get_set_fun]
      exact inv_free h.inv hi (by simp)

theorem usable_owner {u : Usage} {w : World} (h : Tracks u w) {i : Nat} (hl : i ∈ u.live) (hs : i ∉ u.spent) :
    ∃ buf, w.get i = some ⟨buf, true⟩ := by
  obtain ⟨⟨buf, owner⟩, ho⟩ := Option.isSome_iff_exists.1 ((h.live i).1 hl)
  cases owner with
  | true => exact ⟨buf, ho⟩
  | false => exact absurd (h.spent i _ ho rfl) hs

theorem assign_inv {w : World} (hi : Inv w.get w.freed w.next) {i j : Nat} (h0 : w.get i = some ⟨none, true⟩) {buf : Option Nat}
    (hj : w.get j = some ⟨buf, true⟩) :
    ∃ w', w.assign i j = .ok w' ∧ Inv w'.get w'.freed w'.next ∧ (∀ k, (w'.get k).isSome = (w.get k).isSome) ∧
      ∀ k o, w'.get k = some o → o.owner = false → k = j ∨ (k ≠ i ∧ w.get k = some o) := by
  unfold World.assign
  rw [hj]
  cases buf with
  | none =>
    refine ⟨w, rfl, hi, fun _ => rfl, ?_⟩
    intro k o hk ho
    refine Or.inr ⟨?_, hk⟩
    rintro rfl
    rw [h0] at hk
    simp only [Option.some.injEq] at hk
    rw [← hk] at ho
    simp at ho
  | some b =>
    have hij : i ≠ j := by
      rintro rfl
      rw [h0] at hj
      simp at hj
    refine ⟨_, rfl, ?_, ?_, ?_⟩
    · rw [get_set_fun, get_set_fun]
      exact inv_move hi hij (by simp [h0]) hj
    · intro k
      rw [get_set, get_set]
      split
      · rename_i e; rw [e, h0]; rfl
      · split
        · rename_i e; rw [e, hj]; rfl
        · rfl
    · intro k o hk ho
      rw [get_set, get_set] at hk
      split at hk
      · simp only [Option.some.injEq] at hk
        rw [← hk] at ho
        simp at ho
      · split at hk
        · rename_i e; exact Or.inl e
        · rename_i e _; exact Or.inr ⟨e, hk⟩

theorem step_tracks {u : Usage} {w : World} (h : Tracks u w) (dbg : Bool) {op : OwnOp} {u' : Usage} (hu : u.step op = some u') :
    ∃ w', ownStep dbg w op = .ok w' ∧ Tracks u' w' := by
  cases op with
  | create i =>
    simp only [Usage.step] at hu
    split at hu
    · rename_i hl
      simp only [Option.some.injEq] at hu
      subst hu
      have hn : w.get i = none := by
        have := mt (h.live i).2 hl
        simpa using this
      refine ⟨_, rfl, ?_, ?_, ?_⟩
      · intro k
        rw [get_set]
        by_cases e : k = i
        · simp [e]
        · simp [e, h.live k]
      · intro k o hk ho
        rw [get_set] at hk
        split at hk
        · simp only [Option.some.injEq] at hk
          rw [← hk] at ho
          simp at ho
        · rename_i e
          exact mem_without.2 ⟨h.spent k o hk ho, e⟩
      · rw [get_set_fun]
        exact inv_drop h.inv (by simp [hn]) (by simp)
    · exact absurd hu (by simp)
  | copy i j =>
    simp only [Usage.step] at hu
    split at hu
    · rename_i hl
      obtain ⟨hl, hj, hs⟩ := hl
      simp only [Option.some.injEq] at hu
      subst hu
      have hn : w.get i = none := by
        have := mt (h.live i).2 hl
        simpa using this
      obtain ⟨buf, hb⟩ := usable_owner h hj hs
      have hij : j ≠ i := by
        rintro rfl
        rw [hn] at hb
        simp at hb
      have hinv : Inv (w.set i ⟨none, true⟩).get (w.set i ⟨none, true⟩).freed (w.set i ⟨none, true⟩).next := by
        rw [get_set_fun]
        exact inv_drop h.inv (by simp [hn]) (by simp)
      obtain ⟨w', e, g1, g2, g3⟩ := assign_inv (i := i) (j := j) (buf := buf) hinv (by rw [get_set, if_pos rfl])
        (by rw [get_set, if_neg hij]; exact hb)
      refine ⟨w', e, ?_, ?_, g1⟩
      · intro k
        rw [g2 k, get_set]
        by_cases e : k = i
        · simp [e]
        · simp [e, h.live k]
      · intro k o hk ho
        rcases g3 k o hk ho with rfl | ⟨hne, hk2⟩
        · simp
        · rw [get_set, if_neg hne] at hk2
          exact List.mem_cons_of_mem _ (mem_without.2 ⟨h.spent k o hk2 ho, hne⟩)
    · exact absurd hu (by simp)
  | assign i j =>
    simp only [Usage.step] at hu
    split at hu
    · rename_i hl
      obtain ⟨hl, hj, hs⟩ := hl
      simp only [Option.some.injEq] at hu
      subst hu
      obtain ⟨o, ho⟩ := Option.isSome_iff_exists.1 ((h.live i).1 hl)
      obtain ⟨buf, hb⟩ := usable_owner h hj hs
      obtain ⟨w1, e1, hg, hinv⟩ := removeObj_tracks h ho
      obtain ⟨w', e, g1, g2, g3⟩ := assign_inv (i := i) (j := j) (buf := if j = i then none else buf) hinv (by rw [hg]; simp)
        (by
          rw [hg]
          by_cases e : j = i
          · simp [e]
          · simp [e, hb])
      refine ⟨w', ?_, ?_, ?_, g1⟩
      · simp only [ownStep, ho, e1, Res.bind, e]
      · intro k
        rw [g2 k, hg]
        by_cases e : k = i
        · simp [e, hl]
        · simp [e, h.live k]
      · intro k o hk ho
        rcases g3 k o hk ho with rfl | ⟨hne, hk2⟩
        · simp
        · rw [hg] at hk2
          simp only [if_neg hne] at hk2
          exact List.mem_cons_of_mem _ (mem_without.2 ⟨h.spent k o hk2 ho, hne⟩)
    · exact absurd hu (by simp)
  | write i grow =>
    simp only [Usage.step] at hu
    split at hu
    · rename_i hl
      simp only [Option.some.injEq] at hu
      subst hu
      obtain ⟨buf, hb⟩ := usable_owner h hl.1 hl.2
      have alloc : ∀ (freed : List Nat), Inv (fun k => if k = i then some ⟨none, true⟩ else w.get k) freed w.next →
          Tracks u { (World.set ⟨w.objs, freed, w.next⟩ i ⟨some w.next, true⟩) with next := w.next + 1 } := by
        intro freed hinv
        have hget : World.get { (World.set ⟨w.objs, freed, w.next⟩ i ⟨some w.next, true⟩) with next := w.next + 1 } =
            fun k => if k = i then some ⟨some w.next, true⟩ else w.get k := get_set_fun ⟨w.objs, freed, w.next⟩ i _
        refine ⟨?_, ?_, ?_⟩
        · intro k
          rw [hget]
          by_cases e : k = i
          · simp [e, hl.1]
          · simp [e, h.live k]
        · intro k o hk ho
          rw [hget] at hk
          simp only at hk
          split at hk
          · simp only [Option.some.injEq] at hk
            rw [← hk] at ho
            simp at ho
          · exact h.spent k o hk ho
        · rw [hget]
          have := inv_alloc (i := i) hinv (by simp)
          refine cast ?_ this
          congr 1
          funext k
          by_cases e : k = i <;> simp [e]
      simp only [ownStep, hb]
      rw [if_neg (by simp)]
      cases buf with
      | none =>
        refine ⟨_, rfl, ?_⟩
        refine alloc w.freed ?_
        exact inv_drop h.inv (by simp [hb]) (by simp)
      | some b =>
        have hf := (h.inv.alive i b hb).1
        simp only [if_neg hf]
        cases grow with
        | false => exact ⟨w, rfl, h⟩
        | true =>
          simp only [if_true, World.free, if_neg hf, Res.bind]
          refine ⟨_, rfl, alloc (b :: w.freed) ?_⟩
          exact inv_free h.inv hb (by simp)
    · exact absurd hu (by simp)
  | read i =>
    simp only [Usage.step] at hu
    split at hu
    · rename_i hl
      simp only [Option.some.injEq] at hu
      subst hu
      obtain ⟨buf, hb⟩ := usable_owner h hl.1 hl.2
      refine ⟨w, ?_, h⟩
      simp only [ownStep, hb]
      cases buf with
      | none => rfl
      | some b => simp only [if_neg (h.inv.alive i b hb).1]
    · exact absurd hu (by simp)
  | reset i =>
    simp only [Usage.step] at hu
    split at hu
    · rename_i hl
      simp only [Option.some.injEq] at hu
      subst hu
      obtain ⟨o, ho⟩ := Option.isSome_iff_exists.1 ((h.live i).1 hl)
      obtain ⟨w1, e1, hg, hinv⟩ := removeObj_tracks h ho
      refine ⟨w1, ?_, ?_, ?_, hinv⟩
      · simp only [ownStep, ho, e1]
      · intro k
        rw [hg]
        by_cases e : k = i
        · simp [e, hl]
        · simp [e, h.live k]
      · intro k o hk ho
        rw [hg] at hk
        simp only at hk
        split at hk
        · simp only [Option.some.injEq] at hk
          rw [← hk] at ho
          simp at ho
        · rename_i e
          exact mem_without.2 ⟨h.spent k o hk ho, e⟩
    · exact absurd hu (by simp)
  | destroy i =>
    simp only [Usage.step] at hu
    split at hu
    · rename_i hl
      simp only [Option.some.injEq] at hu
      subst hu
      obtain ⟨o, ho⟩ := Option.isSome_iff_exists.1 ((h.live i).1 hl)
      obtain ⟨w1, e1, hg, hinv⟩ := removeObj_tracks h ho
      have hget : World.get { w1 with objs := w1.objs.filter fun p => p.1 ≠ i } = fun k => if k = i then none else w1.get k :=
        funext (get_erase w1 i)
      refine ⟨{ w1 with objs := w1.objs.filter fun p => p.1 ≠ i }, ?_, ?_, ?_, ?_⟩
      · simp only [ownStep, ho, e1, Res.bind]
      · intro k
        rw [hget, hg, mem_without]
        by_cases e : k = i
        · simp [e]
        · simp [e, h.live k]
      · intro k o hk ho
        rw [hget, hg] at hk
        simp only at hk
        split at hk
        · simp at hk
        · rename_i e
          exact mem_without.2 ⟨h.spent k o hk ho, e⟩
      · rw [hget]
        exact inv_drop hinv (by rw [hg]; simp) (by simp)
    · exact absurd hu (by simp)

theorem run_tracks (dbg : Bool) (ops : List OwnOp) : ∀ {u : Usage} {w : World}, Tracks u w → ∀ {u' : Usage}, u.run ops = some u' →
    ∃ w', ownRun dbg ops w = .ok w' ∧ Tracks u' w' := by
  induction ops with
  | nil =>
    intro u w h u' hu
    simp only [Usage.run, Option.some.injEq] at hu
    subst hu
    exact ⟨w, rfl, h⟩
  | cons op ops ih =>
    intro u w h u' hu
    simp only [Usage.run, Option.bind_eq_some_iff] at hu
    obtain ⟨u1, h1, h2⟩ := hu
    obtain ⟨w1, e1, g1⟩ := step_tracks h dbg h1
    obtain ⟨w2, e2, g2⟩ := ih g1 h2
    exact ⟨w2, by simp only [ownRun, e1, Res.bind, e2], g2⟩

theorem tracks_empty : Tracks ⟨[], []⟩ World.empty :=
  ⟨by simp [World.get, World.empty], by simp [World.get, World.empty],
    ⟨by simp [World.get, World.empty], by simp [World.get, World.empty], by simp [World.empty], by simp [World.empty], by simp [World.empty]⟩⟩

/-- C39 For all sequences of construction, copying, assignment, writing, reading, resetting and destruction in which no
stream is used after it was copied from: no assertion fails, no buffer is freed twice or used after it was freed, every
buffer that exists is owned by exactly one stream, and all buffers are freed when all streams are gone. Other
sequences are the subject of C153. -/
theorem C39_owner (dbg : Bool) (ops : List OwnOp) {u : Usage} (hu : Usage.run ops ⟨[], []⟩ = some u) :
    ∃ w, ownRun dbg ops World.empty = .ok w ∧
      (∀ b < w.next, b ∉ w.freed → ∃! i, w.get i = some ⟨some b, true⟩) ∧
      (∀ i b, w.get i = some ⟨some b, true⟩ → b ∉ w.freed) ∧
      w.freed.Nodup ∧
      (u.live = [] → ∀ b < w.next, b ∈ w.freed) := by
  obtain ⟨w, e, h⟩ := run_tracks dbg ops tracks_empty hu
  refine ⟨w, e, ?_, fun i b hi => (h.inv.alive i b hi).1, h.inv.nodup, ?_⟩
  · intro b hb hf
    obtain ⟨i, hi⟩ := h.inv.leak b hb hf
    exact ⟨i, hi, fun j hj => h.inv.uniq j i b hj hi⟩
  · intro hl b hb
    by_contra hf
    obtain ⟨i, hi⟩ := h.inv.leak b hb hf
    have := (h.live i).2 (by rw [hi]; rfl)
    rw [hl] at this
    simp at this

/-- A stream is written, copied, the copy is written and assigned back; both are destroyed. -/
def tour : List OwnOp :=
  [.create 0, .write 0 true, .write 0 true, .copy 1 0, .write 1 true, .read 1, .assign 0 1, .write 0 false, .reset 1, .write 1 true,
   .destroy 0, .destroy 1]

example : (Usage.run tour ⟨[], []⟩).isSome = true ∧ ownRun true tour World.empty = .ok ⟨[], [3, 2, 1, 0], 4⟩ := by decide

/-- Copying twice from the same stream: both copies free the buffer, also with assertions. -/
theorem C153_two_copies_false : ¬ ∀ (dbg : Bool) ops, ownRun dbg ops World.empty ≠ .undefined := by
  intro h
  exact h true [.create 0, .write 0 true, .copy 1 0, .copy 2 0, .destroy 2, .destroy 1] (by decide)

/-- Reading from a stream after its copy is gone: the buffer has been freed. -/
theorem C153_source_false : ownRun true [.create 0, .write 0 true, .copy 1 0, .destroy 1, .read 0] World.empty = .undefined := by
  decide

/-- A copy and its source share the buffer: growth of the copy frees the memory that the source still points to. -/
theorem C153_growth_false : ownRun true [.create 0, .write 0 true, .copy 1 0, .write 1 true, .read 0] World.empty = .undefined := by
  decide

/-- A stream that is assigned to itself loses its buffer. -/
theorem C153_self_false : ∃ w, ownRun true [.create 0, .write 0 true, .assign 0 0] World.empty = .ok w ∧ w.get 0 = some ⟨none, true⟩ :=
  ⟨⟨[(0, ⟨none, true⟩)], [0], 1⟩, by decide, by decide⟩

end Verif.ObjStream
