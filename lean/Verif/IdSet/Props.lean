import Verif.IdSet.Model

/-!
# C03: vertex ids are persistent, unique and never reused

Observation: `HasId s h n` says that in state `s` the vertex `h` is alive and its id is `n`.
-/

namespace Verif.IdSet

/-- Vertex `h` is alive in `s` and carries the id `n`. -/
def HasId (s : State) (h n : ℕ) : Prop := ∃ v ∈ s.verts, v.handle = h ∧ v.idWasSet = true ∧ v.id = n

/-- Vertex `h` is alive in `s`. -/
def Alive (s : State) (h : ℕ) : Prop := ∃ v ∈ s.verts, v.handle = h

/-- Invariant: handles are distinct and old, set ids are distinct and below the counter. -/
structure Inv (s : State) : Prop where
  handles : (s.verts.map (·.handle)).Nodup
  old : ∀ v ∈ s.verts, v.handle < s.fresh
  lt : ∀ v ∈ s.verts, v.idWasSet = true → v.id < s.next
  inj : ∀ v ∈ s.verts, ∀ w ∈ s.verts, v.idWasSet = true → w.idWasSet = true → v.id = w.id →
    v.handle = w.handle

theorem mem_insert {l : List Vtx} {pos : ℕ} {a v : Vtx} :
    v ∈ l.insertIdx (min pos l.length) a ↔ v = a ∨ v ∈ l :=
  List.mem_insertIdx (by omega)

theorem map_insert_perm {l : List Vtx} {pos : ℕ} {a : Vtx} :
    ((l.insertIdx (min pos l.length) a).map (·.handle)).Perm (a.handle :: l.map (·.handle)) := by
  have := List.perm_insertIdx (x := a) (l := l) (i := min pos l.length) (h := by omega)
  exact (this.map _)

/-! ### the update loop -/

theorem updateLoop_spec (l : List Vtx) (n : ℕ) :
    n ≤ (updateLoop l n).2 ∧
    (updateLoop l n).1.map (·.handle) = l.map (·.handle) ∧
    (∀ w ∈ (updateLoop l n).1, w.idWasSet = true ∧ (w ∈ l ∨ (n ≤ w.id ∧ w.id < (updateLoop l n).2))) ∧
    (∀ v ∈ l, v.idWasSet = true → v ∈ (updateLoop l n).1) ∧
    (∀ v ∈ (updateLoop l n).1, ∀ w ∈ (updateLoop l n).1, n ≤ v.id → n ≤ w.id →
      (∀ u ∈ l, u.idWasSet = true → u.id < n) → v.id = w.id → v.handle = w.handle) := by
  induction l generalizing n with
  | nil => simp [updateLoop]
  | cons a t ih =>
    by_cases ha : a.idWasSet = true
    · obtain ⟨h1, h2, h3, h4, h5⟩ := ih n
      have e : updateLoop (a :: t) n = (a :: (updateLoop t n).1, (updateLoop t n).2) := by
        simp [updateLoop, ha]
      rw [e]
      refine ⟨h1, by simp [h2], ?_, ?_, ?_⟩
      · intro w hw
        rcases List.mem_cons.1 hw with rfl | hw
        · exact ⟨ha, Or.inl (List.mem_cons_self ..)⟩
        · exact ⟨(h3 w hw).1, (h3 w hw).2.imp_left (List.mem_cons_of_mem _)⟩
      · intro v hv hs
        rcases List.mem_cons.1 hv with rfl | hv
        · exact List.mem_cons_self ..
        · exact List.mem_cons_of_mem _ (h4 v hv hs)
      · intro v hv w hw hnv hnw hu hvw
        rcases List.mem_cons.1 hv with rfl | hv
        · exact absurd (hu v (List.mem_cons_self ..) ha) (by omega)
        · rcases List.mem_cons.1 hw with rfl | hw
          · exact absurd (hu w (List.mem_cons_self ..) ha) (by omega)
          · exact h5 v hv w hw hnv hnw (fun u hu' => hu u (List.mem_cons_of_mem _ hu')) hvw
    · have ha' : a.idWasSet = false := by simpa using ha
      obtain ⟨h1, h2, h3, h4, h5⟩ := ih (n + 1)
      have e : updateLoop (a :: t) n
          = ({ a with id := n, idWasSet := true } :: (updateLoop t (n + 1)).1, (updateLoop t (n + 1)).2) := by
        simp [updateLoop, ha']
      rw [e]
      have hbig : ∀ w ∈ (updateLoop t (n + 1)).1, (∀ u ∈ t, u.idWasSet = true → u.id < n) → n ≤ w.id →
          n + 1 ≤ w.id := by
        intro w hw hu hn
        obtain ⟨hs, hm | hm⟩ := h3 w hw
        · exact absurd (hu w hm hs) (by omega)
        · exact hm.1
      refine ⟨by simp only; omega, by simp [h2], ?_, ?_, ?_⟩
      · intro w hw
        rcases List.mem_cons.1 hw with rfl | hw
        · exact ⟨rfl, Or.inr ⟨le_refl _, by simp only; omega⟩⟩
        · refine ⟨(h3 w hw).1, (h3 w hw).2.imp (List.mem_cons_of_mem _) (fun h => ⟨by omega, h.2⟩)⟩
      · intro v hv hs
        rcases List.mem_cons.1 hv with rfl | hv
        · exact absurd hs ha
        · exact List.mem_cons_of_mem _ (h4 v hv hs)
      · intro v hv w hw hnv hnw hu hvw
        have hu' : ∀ u ∈ t, u.idWasSet = true → u.id < n := fun u hu' => hu u (List.mem_cons_of_mem _ hu')
        rcases List.mem_cons.1 hv with rfl | hv
        · rcases List.mem_cons.1 hw with rfl | hw
          · rfl
          · have := hbig w hw hu' hnw
            simp only at hvw; omega
        · rcases List.mem_cons.1 hw with rfl | hw
          · have := hbig v hv hu' hnv
            simp only at hvw; omega
          · exact h5 v hv w hw (hbig v hv hu' hnv) (hbig w hw hu' hnw)
              (fun u hu'' hs => by have := hu' u hu'' hs; omega) hvw

/-- Handles identify vertices. -/
theorem Inv.eq_of_handle {s : State} (hi : Inv s) {v w : Vtx} (hv : v ∈ s.verts) (hw : w ∈ s.verts)
    (h : v.handle = w.handle) : v = w := by
  exact List.inj_on_of_nodup_map hi.handles hv hw h

/-- What one step preserves: ids below the old counter are exactly the old ids (of the survivors). -/
structure Ext (s s' : State) : Prop where
  next_le : s.next ≤ s'.next
  fresh_le : s.fresh ≤ s'.fresh
  keep : ∀ h n, HasId s h n → Alive s' h → HasId s' h n
  back : ∀ h n, HasId s' h n → n < s.next → HasId s h n
  born : ∀ h, Alive s' h → Alive s h ∨ s.fresh ≤ h

theorem Ext.refl (s : State) : Ext s s :=
  ⟨le_refl _, le_refl _, fun _ _ h _ => h, fun _ _ h _ => h, fun _ h => Or.inl h⟩

theorem inv_updateLoop {s : State} (hi : Inv s) :
    Inv ⟨(updateLoop s.verts s.next).1, (updateLoop s.verts s.next).2, s.fresh⟩ := by
  obtain ⟨h1, h2, h3, h4, h5⟩ := updateLoop_spec s.verts s.next
  refine ⟨by simpa only [h2] using hi.handles, ?_, ?_, ?_⟩
  · intro v hv
    have : v.handle ∈ (updateLoop s.verts s.next).1.map (·.handle) := List.mem_map_of_mem hv
    rw [h2, List.mem_map] at this
    obtain ⟨w, hw, he⟩ := this
    exact he ▸ hi.old w hw
  · intro v hv hs
    rcases (h3 v hv).2 with hm | hm
    · have := hi.lt v hm hs; simp only; omega
    · exact hm.2
  · intro v hv w hw hsv hsw hvw
    rcases (h3 v hv).2 with hmv | hmv <;> rcases (h3 w hw).2 with hmw | hmw
    · exact hi.inj v hmv w hmw hsv hsw hvw
    · have := hi.lt v hmv hsv; omega
    · have := hi.lt w hmw hsw; omega
    · exact h5 v hv w hw hmv.1 hmw.1 hi.lt hvw

theorem step_ok {s : State} (hi : Inv s) (o : Op) : Inv (step s o) ∧ Ext s (step s o) := by
  cases o with
  | insertUnset pos junk =>
    refine ⟨⟨?_, ?_, ?_, ?_⟩, ⟨le_refl _, Nat.le_succ _, ?_, ?_, ?_⟩⟩
    · rw [step, map_insert_perm.nodup_iff, List.nodup_cons]
      refine ⟨fun h => ?_, hi.handles⟩
      obtain ⟨w, hw, he⟩ := List.mem_map.1 h
      have := hi.old w hw; simp only at he; omega
    · intro v hv
      rcases mem_insert.1 hv with rfl | hv
      · exact Nat.lt_succ_self _
      · exact Nat.lt_succ_of_lt (hi.old v hv)
    · intro v hv hs
      rcases mem_insert.1 hv with rfl | hv
      · cases hs
      · exact hi.lt v hv hs
    · intro v hv w hw hsv hsw hvw
      rcases mem_insert.1 hv with rfl | hv
      · cases hsv
      · rcases mem_insert.1 hw with rfl | hw
        · cases hsw
        · exact hi.inj v hv w hw hsv hsw hvw
    · rintro h n ⟨v, hv, h1, h2, h3⟩ -
      exact ⟨v, mem_insert.2 (Or.inr hv), h1, h2, h3⟩
    · rintro h n ⟨v, hv, h1, h2, h3⟩ -
      rcases mem_insert.1 hv with rfl | hv
      · cases h2
      · exact ⟨v, hv, h1, h2, h3⟩
    · rintro h ⟨v, hv, h1⟩
      rcases mem_insert.1 hv with rfl | hv
      · exact Or.inr (le_of_eq h1)
      · exact Or.inl ⟨v, hv, h1⟩
  | insertSet pos junk =>
    refine ⟨⟨?_, ?_, ?_, ?_⟩, ⟨Nat.le_succ _, Nat.le_succ _, ?_, ?_, ?_⟩⟩
    · rw [step, map_insert_perm.nodup_iff, List.nodup_cons]
      refine ⟨fun h => ?_, hi.handles⟩
      obtain ⟨w, hw, he⟩ := List.mem_map.1 h
      have := hi.old w hw; simp only at he; omega
    · intro v hv
      rcases mem_insert.1 hv with rfl | hv
      · exact Nat.lt_succ_self _
      · exact Nat.lt_succ_of_lt (hi.old v hv)
    · intro v hv hs
      rcases mem_insert.1 hv with rfl | hv
      · exact Nat.lt_succ_self _
      · exact Nat.lt_succ_of_lt (hi.lt v hv hs)
    · intro v hv w hw hsv hsw hvw
      rcases mem_insert.1 hv with rfl | hv
      · rcases mem_insert.1 hw with rfl | hw
        · rfl
        · have := hi.lt w hw hsw; simp only at hvw; omega
      · rcases mem_insert.1 hw with rfl | hw
        · have := hi.lt v hv hsv; simp only at hvw; omega
        · exact hi.inj v hv w hw hsv hsw hvw
    · rintro h n ⟨v, hv, h1, h2, h3⟩ -
      exact ⟨v, mem_insert.2 (Or.inr hv), h1, h2, h3⟩
    · rintro h n ⟨v, hv, h1, h2, h3⟩ hn
      rcases mem_insert.1 hv with rfl | hv
      · simp only at h3; omega
      · exact ⟨v, hv, h1, h2, h3⟩
    · rintro h ⟨v, hv, h1⟩
      rcases mem_insert.1 hv with rfl | hv
      · exact Or.inr (le_of_eq h1)
      · exact Or.inl ⟨v, hv, h1⟩
  | remove k =>
    have hsub : ∀ v, v ∈ s.verts.filter (fun v => v.handle ≠ k) → v ∈ s.verts :=
      fun v hv => (List.mem_filter.1 hv).1
    refine ⟨⟨?_, ?_, ?_, ?_⟩, ⟨le_refl _, le_refl _, ?_, ?_, ?_⟩⟩
    · exact hi.handles.sublist (List.filter_sublist.map _)
    · exact fun v hv => hi.old v (hsub v hv)
    · exact fun v hv => hi.lt v (hsub v hv)
    · exact fun v hv w hw => hi.inj v (hsub v hv) w (hsub w hw)
    · rintro h n ⟨v, hv, h1, h2, h3⟩ ⟨w, hw, hwh⟩
      have : v = w := hi.eq_of_handle hv (hsub w hw) (by omega)
      exact ⟨v, this ▸ hw, h1, h2, h3⟩
    · rintro h n ⟨v, hv, h1⟩ -
      exact ⟨v, hsub v hv, h1⟩
    · rintro h ⟨v, hv, h1⟩
      exact Or.inl ⟨v, hsub v hv, h1⟩
  | update =>
    refine ⟨inv_updateLoop hi, ?_⟩
    obtain ⟨h1, h2, h3, h4, -⟩ := updateLoop_spec s.verts s.next
    refine ⟨h1, le_refl _, ?_, ?_, ?_⟩
    · rintro h n ⟨v, hv, a, b, c⟩ -
      exact ⟨v, h4 v hv b, a, b, c⟩
    · rintro h n ⟨v, hv, a, b, c⟩ hn
      rcases (h3 v hv).2 with hm | hm
      · exact ⟨v, hm, a, b, c⟩
      · omega
    · rintro h ⟨v, hv, a⟩
      have : v.handle ∈ (updateLoop s.verts s.next).1.map (·.handle) := List.mem_map_of_mem hv
      rw [h2, List.mem_map] at this
      obtain ⟨w, hw, he⟩ := this
      exact Or.inl ⟨w, hw, by omega⟩

theorem Ext.trans {a b c : State} (hb : Inv b) (h1 : Ext a b) (h2 : Ext b c) (ha : Inv a) : Ext a c := by
  refine ⟨le_trans h1.next_le h2.next_le, le_trans h1.fresh_le h2.fresh_le, ?_, ?_, ?_⟩
  · intro h n hn hc
    have hlt : h < a.fresh := by
      obtain ⟨v, hv, e, -⟩ := hn; exact e ▸ ha.old v hv
    rcases h2.born h hc with hb' | hb'
    · exact h2.keep h n (h1.keep h n hn hb') hc
    · have := h1.fresh_le; omega
  · intro h n hn hlt
    exact h1.back h n (h2.back h n hn (lt_of_lt_of_le hlt h1.next_le)) hlt
  · intro h hc
    rcases h2.born h hc with hb' | hb'
    · exact h1.born h hb'
    · exact Or.inr (le_trans h1.fresh_le hb')

theorem run_ok {s : State} (hi : Inv s) (ops : List Op) : Inv (run s ops) ∧ Ext s (run s ops) := by
  induction ops generalizing s with
  | nil => exact ⟨hi, Ext.refl s⟩
  | cons o t ih =>
    obtain ⟨h1, h2⟩ := step_ok hi o
    obtain ⟨h3, h4⟩ := ih h1
    exact ⟨h3, Ext.trans h1 h2 h4 hi⟩

/-! ### construction -/

theorem factory_inv (ops : List FactoryOp) (s : List Vtx × ℕ × ℕ)
    (hi : Inv ⟨s.1, s.2.1, s.2.2⟩ ∧ ∀ v ∈ s.1, v.idWasSet = true) :
    Inv ⟨(ops.foldl factoryStep s).1, (ops.foldl factoryStep s).2.1, (ops.foldl factoryStep s).2.2⟩ ∧
    ∀ v ∈ (ops.foldl factoryStep s).1, v.idWasSet = true := by
  induction ops generalizing s with
  | nil => exact hi
  | cons o t ih =>
    refine ih _ ?_
    obtain ⟨hi, hset⟩ := hi
    cases o with
    | new pos =>
      refine ⟨(step_ok hi (.insertSet pos 0)).1, fun v hv => ?_⟩
      rcases mem_insert.1 hv with rfl | hv
      · rfl
      · exact hset v hv
    | again k =>
      have hm : ∀ v ∈ (factoryStep s (.again k)).1, ∃ u ∈ s.1, v.handle = u.handle ∧ v.idWasSet = true ∧
          ((u.handle = k ∧ v.id = s.2.1) ∨ (u.handle ≠ k ∧ v.id = u.id)) := by
        intro v hv
        obtain ⟨u, hu, rfl⟩ := List.mem_map.1 hv
        refine ⟨u, hu, ?_⟩
        by_cases hk : u.handle = k
        · simp [hk]
        · simp [hk, hset u hu]
      refine ⟨⟨?_, ?_, ?_, ?_⟩, fun v hv => ?_⟩
      · have : (factoryStep s (.again k)).1.map (·.handle) = s.1.map (·.handle) := by
          simp only [factoryStep, List.map_map]
          refine List.map_congr_left (fun v _ => ?_)
          simp only [Function.comp]
          split <;> rfl
        simpa only [this] using hi.handles
      · intro v hv
        obtain ⟨u, hu, e, -⟩ := hm v hv
        exact e ▸ hi.old u hu
      · intro v hv _
        obtain ⟨u, hu, e, -, h | h⟩ := hm v hv
        · simp only [factoryStep]; omega
        · have := hi.lt u hu (hset u hu)
          simp only [factoryStep] at *; omega
      · intro v hv w hw _ _ hvw
        obtain ⟨u, hu, e, -, h⟩ := hm v hv
        obtain ⟨u', hu', e', -, h'⟩ := hm w hw
        have l1 := hi.lt u hu (hset u hu)
        have l2 := hi.lt u' hu' (hset u' hu')
        simp only at l1 l2
        rcases h with h | h <;> rcases h' with h' | h'
        · omega
        · omega
        · omega
        · rw [e, e']; exact hi.inj u hu u' hu' (hset u hu) (hset u' hu') (by omega)
      · obtain ⟨u, hu, e, hs, -⟩ := hm v hv
        exact hs

theorem initNext_spec (l : List Vtx) (n : ℕ) :
    n ≤ l.foldl (fun nxt v => if v.idWasSet && decide (v.id ≥ nxt) then v.id + 1 else nxt) n ∧
    ∀ v ∈ l, v.idWasSet = true →
      v.id < l.foldl (fun nxt v => if v.idWasSet && decide (v.id ≥ nxt) then v.id + 1 else nxt) n := by
  induction l generalizing n with
  | nil => simp
  | cons a t ih =>
    rw [List.foldl_cons]
    have h := ih (if a.idWasSet && decide (a.id ≥ n) then a.id + 1 else n)
    have hge : n ≤ (if a.idWasSet && decide (a.id ≥ n) then a.id + 1 else n) := by
      split
      · rename_i h; simp at h; omega
      · exact le_refl _
    refine ⟨le_trans hge h.1, fun v hv hs => ?_⟩
    rcases List.mem_cons.1 hv with rfl | hv
    · refine lt_of_lt_of_le ?_ h.1
      by_cases hv : v.id ≥ n
      · simp [hs, hv]
      · simp [hv]; omega
    · exact h.2 v hv hs

theorem construct_inv (ops : List FactoryOp) : Inv (construct ops) := by
  obtain ⟨hi, hset⟩ := factory_inv ops ([], 0, 0) ⟨⟨by simp, by simp, by simp, by simp⟩, by simp⟩
  exact inv_updateLoop (s := ⟨(factoryRun ops).1, initNext (factoryRun ops).1, (factoryRun ops).2.2⟩)
    ⟨hi.handles, hi.old, (initNext_spec _ 0).2, hi.inj⟩

/-- **C03** Uniqueness: at any time of any history, two living vertices with the same id are the same. -/
theorem C03_unique (f : List FactoryOp) (ops : List Op) {h h' n : ℕ}
    (h1 : HasId (run (construct f) ops) h n) (h2 : HasId (run (construct f) ops) h' n) : h = h' := by
  obtain ⟨v, hv, rfl, sv, rfl⟩ := h1
  obtain ⟨w, hw, rfl, sw, e⟩ := h2
  exact ((run_ok (construct_inv f) ops).1).inj v hv w hw sv sw e.symm

/-- **C03** Persistence: a vertex that has an id keeps it as long as it lives, whatever happens in between. -/
theorem C03_persistent (f : List FactoryOp) (ops later : List Op) {h n : ℕ}
    (h1 : HasId (run (construct f) ops) h n) (h2 : Alive (run (run (construct f) ops) later) h) :
    HasId (run (run (construct f) ops) later) h n :=
  (run_ok (run_ok (construct_inv f) ops).1 later).2.keep h n h1 h2

/-- **C03** No reuse: if at some time vertex `h` has id `n` and at any later time vertex `h'` has id `n`, then
`h' = h`; in particular the id of a removed vertex is never given to another one. -/
theorem C03_never_reused (f : List FactoryOp) (ops later : List Op) {h h' n : ℕ}
    (h1 : HasId (run (construct f) ops) h n) (h2 : HasId (run (run (construct f) ops) later) h' n) :
    h' = h := by
  have hi := (run_ok (construct_inv f) ops).1
  have he := (run_ok hi later).2
  have hn : n < (run (construct f) ops).next := by
    obtain ⟨v, hv, -, sv, rfl⟩ := h1; exact hi.lt v hv sv
  exact C03_unique f ops (he.back h' n h2 hn) h1

/-- **C03** After construction and after every id update each living vertex has an id. -/
theorem C03_all_have_ids (f : List FactoryOp) (ops : List Op) {h : ℕ}
    (ha : Alive (run (construct f) (ops ++ [.update])) h) : ∃ n, HasId (run (construct f) (ops ++ [.update])) h n := by
  obtain ⟨v, hv, e⟩ := ha
  have : run (construct f) (ops ++ [.update]) = step (run (construct f) ops) .update := by
    simp [run]
  rw [this] at hv ⊢
  exact ⟨v.id, v, hv, e, ((updateLoop_spec _ _).2.2.1 v hv).1, rfl⟩

/-- **C03** A vertex inserted with `setNextId` has its id at once (before the next update), so that segments
recorded with this id stay valid (by `C03_persistent`). -/
theorem C03_set_at_once (f : List FactoryOp) (ops : List Op) (pos junk : ℕ) :
    HasId (run (construct f) (ops ++ [.insertSet pos junk])) (run (construct f) ops).fresh
      (run (construct f) ops).next := by
  have : run (construct f) (ops ++ [.insertSet pos junk]) = step (run (construct f) ops) (.insertSet pos junk) := by
    simp [run]
  rw [this]
  exact ⟨_, mem_insert.2 (Or.inl rfl), rfl, rfl, rfl⟩

/-- Non-vacuity: three vertices from a factory (one point inserted twice), one refined, one removed, one more
refined: the new vertices get ids 4 and 5 although id 1 is free again. -/
example : (run (construct [.new 0, .new 1, .again 0, .new 0])
      [.insertUnset 0 77, .update, .remove 1, .insertSet 2 0, .update]).verts.map (fun v => (v.handle, v.id))
    = [(3, 4), (2, 3), (4, 5), (0, 2)] := by decide

end Verif.IdSet
