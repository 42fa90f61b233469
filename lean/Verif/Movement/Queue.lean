import Verif.Movement.Props

/-!
# C61: which vertices are queued for removal
-/

namespace Verif.Movement

variable {P K : Type}

/-- From `s` to `s'`, cached flags are kept, and every vertex that is queued is off the interface with boundary flag 0, or
has exactly two interface elements (so is neither a tip nor a junction). -/
structure Allowed (g : Grid P K) (s s' : State P) : Prop where
  flag : ∀ v b, s.flag v = some b → s'.flag v = some b
  remove : ∀ v ∈ s'.remove, v ∈ s.remove ∨ (g.isInterface v = false ∧ s'.flag v = some false) ∨ (incident g v).length = 2
  keep : ∀ v ∈ s.remove, v ∈ s'.remove

theorem Allowed.refl (g : Grid P K) (s : State P) : Allowed g s s := ⟨fun _ _ h => h, fun _ h => Or.inl h, fun _ h => h⟩

theorem Allowed.trans {g : Grid P K} {a b c : State P} (h : Allowed g a b) (h' : Allowed g b c) : Allowed g a c := by
  refine ⟨fun v x hx => h'.flag v x (h.flag v x hx), ?_, fun v hv => h'.keep v (h.keep v hv)⟩
  intro v hv
  rcases h'.remove v hv with h1 | h1 | h1
  · rcases h.remove v h1 with h2 | h2 | h2
    · exact Or.inl h2
    · exact Or.inr (Or.inl ⟨h2.1, h'.flag v _ h2.2⟩)
    · exact Or.inr (Or.inr h2)
  · exact Or.inr (Or.inl h1)
  · exact Or.inr (Or.inr h1)

theorem allowed_pos (g : Grid P K) (s : State P) (pos : Nat → P) : Allowed g s { s with pos := pos } :=
  ⟨fun _ _ h => h, fun _ h => Or.inl h, fun _ h => h⟩

theorem allowed_boundaryFlag (g : Grid P K) (s : State P) (v : Nat) : Allowed g s (boundaryFlag g s v).2 ∧
    (boundaryFlag g s v).2.flag v = some (boundaryFlag g s v).1 := by
  unfold boundaryFlag
  split
  · rename_i b hb
    exact ⟨Allowed.refl g s, hb⟩
  · rename_i hb
    refine ⟨⟨?_, fun _ h => Or.inl h, fun _ h => h⟩, by simp⟩
    intro w b hw
    have : w ≠ v := by rintro rfl; rw [hb] at hw; simp at hw
    simp [this, hw]

theorem allowed_pushRemove (g : Grid P K) (s : State P) (change : Bool) (v : Nat)
    (h : (g.isInterface v = false ∧ s.flag v = some false) ∨ (incident g v).length = 2) :
    Allowed g s (pushRemove s change v).1 := by
  unfold pushRemove
  split
  · exact Allowed.refl g s
  · refine ⟨fun _ _ h => h, ?_, fun w hw => by simp [hw]⟩
    intro w hw
    simp only [List.mem_append, List.mem_singleton] at hw
    rcases hw with hw | rfl
    · exact Or.inl hw
    · exact Or.inr h

theorem allowed_removeFree (g : Grid P K) (c : List Nat) (s : State P) (change all : Bool) :
    Allowed g s (removeFree g c s change all).1 := by
  induction c generalizing s change all with
  | nil => exact Allowed.refl g s
  | cons w c ih =>
    unfold removeFree
    split
    · exact ih _ _ _
    · rename_i hi
      obtain ⟨b1, b2⟩ := allowed_boundaryFlag g s w
      split
      · exact b1.trans (ih _ _ _)
      · rename_i hb
        refine (b1.trans (allowed_pushRemove g _ change w (Or.inl ⟨by simpa using hi, ?_⟩))).trans (ih _ _ _)
        rw [b2]
        simpa using hb

theorem allowed_removeInterface (g : Grid P K) (c : List Nat) (s : State P) (change all : Bool) :
    Allowed g s (removeInterface g c s change all).1 := by
  induction c generalizing s change all with
  | nil => exact Allowed.refl g s
  | cons w c ih =>
    unfold removeInterface
    split
    · rename_i hw
      exact (allowed_pushRemove g s change w (Or.inr hw)).trans (ih _ _ _)
    · exact ih _ _ _

variable [Zero K] [LE K] [DecidableLE K] [Add P] [Sub P] [Neg P] [Zero P]

theorem allowed_badCell (g : Grid P K) (c : List Nat) (s : State P) (shifts : List P) (change : Bool) :
    Allowed g s (badCell g c s shifts change).2.1 := by
  have hr := allowed_removeFree g c s change true
  have hq := hr.trans (allowed_removeInterface g c (removeFree g c s change true).1 (removeFree g c s change true).2.1 true)
  unfold badCell
  simp only
  split
  · exact hr
  · split
    · exact hr
    · split
      · exact hq
      · exact hq
    · split
      · exact hr
      · split
        · exact hr
        · exact hr
        · split
          · exact hr
          · split
            · exact hr
            · exact ⟨hr.flag, hr.remove, hr.keep⟩

theorem allowed_interfaceLoop (g : Grid P K) (cs : List (List Nat)) (s : State P) (shifts : List P) (change : Bool) :
    Allowed g s (interfaceLoop g cs s shifts change).2.1 := by
  induction cs generalizing s shifts change with
  | nil => exact Allowed.refl g s
  | cons c cs ih =>
    unfold interfaceLoop
    split
    · split
      · exact Allowed.refl g s
      · have hb := allowed_badCell g c s shifts change
        split
        · rename_i heq
          rw [heq] at hb
          exact hb
        · rename_i heq
          rw [heq] at hb
          exact hb.trans (ih _ _ _)
    · exact ih _ _ _

theorem allowed_vertexLoop (g : Grid P K) (cs : List (List Nat)) (s : State P) (change : Bool) :
    Allowed g s (vertexLoop g cs s change).2 := by
  induction cs generalizing s change with
  | nil => exact Allowed.refl g s
  | cons c cs ih =>
    unfold vertexLoop
    split
    · split
      · exact Allowed.refl g s
      · exact (allowed_removeFree g c s change true).trans (ih _ _)
    · exact ih _ _

/-- C61 for `ensureInterfaceMovement`, however it ends: a vertex that it queues for removal is off the interface with
boundary flag 0, or an interface vertex with exactly two interface elements; nothing is taken from the queue. -/
theorem C61_interface (g : Grid P K) (shifts : List P) (s : State P) (v : Nat) :
    (v ∈ s.remove → v ∈ (ensureInterfaceMovement g shifts s).2.remove) ∧
    (v ∈ (ensureInterfaceMovement g shifts s).2.remove → v ∉ s.remove →
      (g.isInterface v = false ∧ (ensureInterfaceMovement g shifts s).2.flag v = some false) ∨
        (incident g v).length = 2) := by
  have key : Allowed g s (ensureInterfaceMovement g shifts s).2 := by
    unfold ensureInterfaceMovement
    split
    · exact Allowed.refl g s
    · split
      · exact Allowed.refl g s
      · rename_i pos hm
        have h := (allowed_pos g s pos).trans (allowed_interfaceLoop g g.cells { s with pos := pos } shifts false)
        split
        · rename_i heq
          rw [heq] at h
          split
          · exact h
          · exact ⟨h.flag, h.remove, h.keep⟩
        · rename_i heq
          rw [heq] at h
          exact h
  refine ⟨key.keep v, fun hv hn => ?_⟩
  rcases key.remove v hv with h | h
  · exact absurd h hn
  · exact h

/-- C61 for `ensureVertexMovement`: a vertex that it queues is off the interface with boundary flag 0, or has two interface
elements (the second case does not occur, see `C32_result`). The flag may be the one for the moved
positions, see C151. -/
theorem C61_vertex (g : Grid P K) (shifts : List P) (s : State P) (v : Nat) :
    (v ∈ s.remove → v ∈ (ensureVertexMovement g shifts s).2.remove) ∧
    (v ∈ (ensureVertexMovement g shifts s).2.remove → v ∉ s.remove →
      (g.isInterface v = false ∧ (ensureVertexMovement g shifts s).2.flag v = some false) ∨ (incident g v).length = 2) := by
  have key : Allowed g s (ensureVertexMovement g shifts s).2 := by
    unfold ensureVertexMovement
    split
    · exact Allowed.refl g s
    · rename_i pos hm
      have h := (allowed_pos g s pos).trans (allowed_vertexLoop g g.cells { s with pos := pos } false)
      split
      · rename_i heq
        rw [heq] at h
        split
        · exact h
        · exact ⟨h.flag, h.remove, h.keep⟩
      · exact h
  refine ⟨key.keep v, fun hv hn => ?_⟩
  rcases key.remove v hv with h | h
  · exact absurd h hn
  · exact h

/-- The bend is removed if the cell has no interface edge: interface vertices 0, 1, 2 of three elements. -/
example : 2 ∈ (ensureInterfaceMovement above [(0, 2), (0, 2)] aboveState).2.remove ∧ 2 ∉ aboveState.remove ∧
    (ensureInterfaceMovement above [(0, 2), (0, 2)] aboveState).2.flag 2 = some false := by decide

/-- The flag of a vertex that was not asked before is computed while the vertices are moved, and it is kept: here the
boundary vertex 2 between 0 and 1 is a corner during the movement only. -/
def flat : Grid (ℤ × ℤ) ℤ :=
  { planar [0, 1, 2, 3] [] [[0, 2, 3], [2, 1, 3]] [] [] with
    corner := fun pos v => if v = 2 then decide (area2 pos [0, 1, 2] ≠ 0) else true }

def flatState : State (ℤ × ℤ) := ⟨at' [(0, 0), (4, 0), (2, 0), (2, 4)], fun _ => none, [], []⟩

/-- C151, the boundary flag: "the flag says whether the vertex is a corner of the domain" is false after a movement was
only tried: the positions are as before, the vertex is not a corner, but its flag is 1, so that it cannot be removed any
more. -/
theorem C151_flag_false : ¬ ∀ (g : Grid (ℤ × ℤ) ℤ) (shifts : List (ℤ × ℤ)) (s : State (ℤ × ℤ)),
    Fits g.verts g.index shifts → (∀ c ∈ g.cells, 0 < g.vol s.pos c) → (∀ v, s.flag v = none) →
      ∀ v b, (ensureVertexMovement g shifts s).2.flag v = some b →
        b = g.corner (ensureVertexMovement g shifts s).2.pos v := by
  intro h
  exact absurd (h flat [(0, 0), (0, 0), (0, 5), (0, 0)] flatState ⟨by decide, by decide⟩ (by decide) (fun _ => rfl) 2 true
    (by decide)) (by decide)

/-- C151 is false for corners: vertex 2 is a corner of the domain, but on a straight line with its neighbours for the moved
positions, so it is queued for removal. -/
theorem C151_corner_false : ¬ ∀ (g : Grid (ℤ × ℤ) ℤ) (shifts : List (ℤ × ℤ)) (s : State (ℤ × ℤ)),
    Fits g.verts g.index shifts → (∀ c ∈ g.cells, 0 < g.vol s.pos c) → (∀ v, s.flag v = none) → s.remove = [] →
      ∀ v ∈ (ensureVertexMovement g shifts s).2.remove, g.corner s.pos v = false := by
  intro h
  exact absurd (h flat [(0, 0), (0, 0), (0, 1), (0, -9)] ⟨at' [(0, 0), (4, 0), (2, -1), (2, 4)], fun _ => none, [], []⟩
    ⟨by decide, by decide⟩ (by decide) (fun _ => rfl) rfl 2 (by decide)) (by decide)

end Verif.Movement
