import Mathlib.Algebra.Group.Int.Defs
import Mathlib.Algebra.Group.Prod
import Mathlib.Algebra.Order.Ring.Int
import Mathlib.Data.List.Nodup
import Mathlib.Tactic.Abel
import Mathlib.Data.Rat.Defs
import Mathlib.Tactic.NormNum
import Verif.Movement.Model

/-!
# C31, C32, C33, C60: movement of vertices
-/

namespace Verif.Movement

/-! ## C33: moving -/

section
variable {P K : Type} [Add P]

theorem moveList_spec (idx : Nat → Nat) (shifts : List P) {vs : List Nat} (hn : vs.Nodup)
    (hr : ∀ v ∈ vs, idx v < shifts.length) (pos : Nat → P) :
    ∃ pos', moveList idx shifts vs pos = some pos' ∧
      (∀ v ∈ vs, ∀ d, shifts[idx v]? = some d → pos' v = pos v + d) ∧ ∀ v, v ∉ vs → pos' v = pos v := by
  induction vs generalizing pos with
  | nil => exact ⟨pos, rfl, by simp, fun _ _ => rfl⟩
  | cons w vs ih =>
    rw [List.nodup_cons] at hn
    have hw := hr w (by simp)
    obtain ⟨pos', h1, h2, h3⟩ := ih hn.2 (fun v hv => hr v (by simp [hv]))
      (fun x => if x = w then pos x + shifts[idx w] else pos x)
    refine ⟨pos', ?_, ?_, ?_⟩
    · simp only [moveList, List.getElem?_eq_getElem hw]
      exact h1
    · intro v hv d hd
      rcases List.mem_cons.1 hv with rfl | hv
      · rw [h3 v hn.1]
        rw [List.getElem?_eq_getElem hw] at hd
        simp only [Option.some.injEq] at hd
        simp [hd]
      · rw [h2 v hv d hd]
        have : v ≠ w := fun h => hn.1 (h ▸ hv)
        simp [this]
    · intro v hv
      simp only [List.mem_cons, not_or] at hv
      rw [h3 v hv.2]
      simp [hv.1]

theorem moveList_none (idx : Nat → Nat) (shifts : List P) {vs : List Nat} {v : Nat} (hv : v ∈ vs)
    (hr : shifts.length ≤ idx v) (pos : Nat → P) : moveList idx shifts vs pos = none := by
  induction vs generalizing pos with
  | nil => simp at hv
  | cons w vs ih =>
    unfold moveList
    split
    · rfl
    · rename_i d hd
      rcases List.mem_cons.1 hv with rfl | hv
      · rw [List.getElem?_eq_none hr] at hd
        simp at hd
      · exact ih hv _

/-- C33 for `moveVertices`: if the vector has an entry for every index, every vertex is translated by the entry at its
index, once, and nothing else happens. That ids, indices and connectivity stay is visible in the type: only positions are
returned. -/
theorem C33_vertices (g : Grid P K) (shifts : List P) (pos : Nat → P) (hn : g.verts.Nodup)
    (hr : ∀ v ∈ g.verts, g.index v < shifts.length) :
    ∃ pos', moveVertices g shifts pos = some pos' ∧
      (∀ v ∈ g.verts, ∀ d, shifts[g.index v]? = some d → pos' v = pos v + d) ∧ ∀ v, v ∉ g.verts → pos' v = pos v :=
  moveList_spec g.index shifts hn hr pos

/-- C33 for `moveInterface`: only interface vertices are moved, each once by the entry at its interface index. -/
theorem C33_interface (g : Grid P K) (shifts : List P) (pos : Nat → P) (hn : g.iverts.Nodup)
    (hr : ∀ v ∈ g.iverts, g.iindex v < shifts.length) :
    ∃ pos', moveInterface g shifts pos = some pos' ∧
      (∀ v ∈ g.iverts, ∀ d, shifts[g.iindex v]? = some d → pos' v = pos v + d) ∧ ∀ v, v ∉ g.iverts → pos' v = pos v :=
  moveList_spec g.iindex shifts hn hr pos

/-- The size of the vector is a precondition (an assertion in the code): with fewer entries memory outside is read. -/
theorem C33_short (g : Grid P K) (shifts : List P) (pos : Nat → P) (v : Nat) (hv : v ∈ g.verts)
    (hr : shifts.length ≤ g.index v) : moveVertices g shifts pos = none := moveList_none _ _ hv hr _

end

/-! ## C32: `ensureVertexMovement` -/

section
variable {P K : Type} [Zero K] [LE K] [DecidableLE K]

/-- The boundary flag of a vertex is 1, if it was not cached before for the given positions. -/
def IsCorner (g : Grid P K) (flag : Nat → Option Bool) (pos : Nat → P) (v : Nat) : Prop :=
  (flag v).getD (g.corner pos v) = true

/-- The vertex may be removed: neither on the interface nor a corner of the domain. -/
def Free (g : Grid P K) (s : State P) (v : Nat) : Prop := g.isInterface v = false ∧ ¬ IsCorner g s.flag s.pos v

/-- The states agree in what `Free` depends on. -/
structure Same (g : Grid P K) (s s' : State P) : Prop where
  pos : s'.pos = s.pos
  cross : s'.cross = s.cross
  free : ∀ v, Free g s' v ↔ Free g s v

theorem Same.trans {g : Grid P K} {a b c : State P} (h : Same g a b) (h' : Same g b c) : Same g a c :=
  ⟨h'.pos.trans h.pos, h'.cross.trans h.cross, fun v => (h'.free v).trans (h.free v)⟩

theorem boundaryFlag_spec (g : Grid P K) (s : State P) (v : Nat) :
    ((boundaryFlag g s v).1 = true ↔ IsCorner g s.flag s.pos v) ∧ Same g s (boundaryFlag g s v).2 ∧
      (boundaryFlag g s v).2.remove = s.remove := by
  unfold boundaryFlag
  split
  · rename_i b hb
    exact ⟨by simp [IsCorner, hb], ⟨rfl, rfl, fun _ => Iff.rfl⟩, rfl⟩
  · rename_i hb
    refine ⟨by simp [IsCorner, hb], ⟨rfl, rfl, ?_⟩, rfl⟩
    intro w
    unfold Free IsCorner
    by_cases hw : w = v
    · subst hw; simp [hb]
    · simp [hw]

theorem pushRemove_spec (g : Grid P K) (s : State P) (change : Bool) (v : Nat) :
    Same g s (pushRemove s change v).1 ∧ (∀ w, w ∈ (pushRemove s change v).1.remove ↔ w ∈ s.remove ∨ w = v) ∧
      ((pushRemove s change v).2 = true ↔ change = true ∨ v ∉ s.remove) := by
  unfold pushRemove
  split
  · rename_i h
    refine ⟨⟨rfl, rfl, fun _ => Iff.rfl⟩, ?_, by simp [h]⟩
    intro w
    constructor
    · exact Or.inl
    · rintro (h' | rfl)
      · exact h'
      · exact h
  · rename_i h
    exact ⟨⟨rfl, rfl, fun _ => Iff.rfl⟩, by simp, by simp [h]⟩

theorem removeFree_spec (g : Grid P K) (c : List Nat) (s : State P) (change all : Bool) :
    Same g s (removeFree g c s change all).1 ∧
      (∀ v, v ∈ (removeFree g c s change all).1.remove ↔ v ∈ s.remove ∨ (v ∈ c ∧ Free g s v)) ∧
      ((removeFree g c s change all).2.1 = true ↔ change = true ∨ ∃ v ∈ c, Free g s v ∧ v ∉ s.remove) ∧
      ((removeFree g c s change all).2.2 = true ↔ all = true ∧ ∀ v ∈ c, ¬ Free g s v) := by
  induction c generalizing s change all with
  | nil => simp only [removeFree]; exact ⟨⟨rfl, rfl, fun _ => Iff.rfl⟩, by simp, by simp, by simp⟩
  | cons w c ih =>
    unfold removeFree
    split
    · rename_i hi
      obtain ⟨h1, h2, h3, h4⟩ := ih s change all
      have hw : ¬ Free g s w := by unfold Free; simp [hi]
      refine ⟨h1, ?_, ?_, ?_⟩
      · intro v
        rw [h2]
        constructor
        · rintro (h | ⟨a, b⟩)
          · exact Or.inl h
          · exact Or.inr ⟨by simp [a], b⟩
        · rintro (h | ⟨a, b⟩)
          · exact Or.inl h
          · rcases List.mem_cons.1 a with rfl | a
            · exact absurd b hw
            · exact Or.inr ⟨a, b⟩
      · rw [h3]; simp [hw]
      · rw [h4]; simp [hw]
    · rename_i hi
      obtain ⟨b1, b2, b3⟩ := boundaryFlag_spec g s w
      split
      · rename_i hb
        obtain ⟨h1, h2, h3, h4⟩ := ih (boundaryFlag g s w).2 change all
        have hw : ¬ Free g s w := by unfold Free; intro h; exact h.2 (b1.1 hb)
        simp only [b2.free, b3] at h2 h3 h4
        refine ⟨b2.trans h1, ?_, ?_, ?_⟩
        · intro v
          rw [h2]
          constructor
          · rintro (h | ⟨a, b⟩)
            · exact Or.inl h
            · exact Or.inr ⟨by simp [a], b⟩
          · rintro (h | ⟨a, b⟩)
            · exact Or.inl h
            · rcases List.mem_cons.1 a with rfl | a
              · exact absurd b hw
              · exact Or.inr ⟨a, b⟩
        · rw [h3]; simp [hw]
        · rw [h4]; simp [hw]
      · rename_i hb
        obtain ⟨p1, p2, p3⟩ := pushRemove_spec g (boundaryFlag g s w).2 change w
        obtain ⟨h1, h2, h3, h4⟩ := ih (pushRemove (boundaryFlag g s w).2 change w).1
          (pushRemove (boundaryFlag g s w).2 change w).2 false
        have hw : Free g s w := by
          refine ⟨by simpa using hi, fun h => hb (b1.2 h)⟩
        have hfree : ∀ v, Free g (pushRemove (boundaryFlag g s w).2 change w).1 v ↔ Free g s v :=
          fun v => (p1.free v).trans (b2.free v)
        simp only [hfree, p2, p3, b3] at h2 h3 h4
        refine ⟨(b2.trans p1).trans h1, ?_, ?_, ?_⟩
        · intro v
          rw [h2]
          constructor
          · rintro ((h | rfl) | ⟨a, b⟩)
            · exact Or.inl h
            · exact Or.inr ⟨by simp, hw⟩
            · exact Or.inr ⟨by simp [a], b⟩
          · rintro (h | ⟨a, b⟩)
            · exact Or.inl (Or.inl h)
            · rcases List.mem_cons.1 a with rfl | a
              · exact Or.inl (Or.inr rfl)
              · exact Or.inr ⟨a, b⟩
        · rw [h3]
          constructor
          · rintro ((h | h) | ⟨v, a, b, c⟩)
            · exact Or.inl h
            · exact Or.inr ⟨w, by simp, hw, h⟩
            · exact Or.inr ⟨v, by simp [a], b, fun h => c (Or.inl h)⟩
          · rintro (h | ⟨v, a, b, c⟩)
            · exact Or.inl (Or.inl h)
            · by_cases hvw : v = w
              · subst hvw
                exact Or.inl (Or.inr c)
              · rcases List.mem_cons.1 a with h | a
                · exact absurd h hvw
                · exact Or.inr ⟨v, a, b, by rintro (h | h); exacts [c h, hvw h]⟩
        · rw [h4]
          constructor
          · intro h; simp at h
          · rintro ⟨-, h⟩
            exact absurd hw (h w (by simp))

theorem vertexLoop_spec (g : Grid P K) (hd : g.dim3 = false) (cs : List (List Nat)) (s : State P) (change : Bool) :
    ∃ b s', vertexLoop g cs s change = (.returned b, s') ∧ Same g s s' ∧
      (∀ v, v ∈ s'.remove ↔ v ∈ s.remove ∨ ∃ c ∈ cs, g.vol s.pos c ≤ 0 ∧ v ∈ c ∧ Free g s v) ∧
      (b = true ↔ change = true ∨ ∃ c ∈ cs, g.vol s.pos c ≤ 0 ∧ ∃ v ∈ c, Free g s v ∧ v ∉ s.remove) := by
  induction cs generalizing s change with
  | nil => exact ⟨change, s, rfl, ⟨rfl, rfl, fun _ => Iff.rfl⟩, by simp, by simp⟩
  | cons c cs ih =>
    unfold vertexLoop
    split
    · rename_i hv
      rw [if_neg (by simp [hd])]
      obtain ⟨r1, r2, r3, -⟩ := removeFree_spec g c s change true
      obtain ⟨b, s', h1, h2, h3, h4⟩ := ih (removeFree g c s change true).1 (removeFree g c s change true).2.1
      simp only [r1.pos, r1.free, r2, r3] at h3 h4
      refine ⟨b, s', h1, r1.trans h2, ?_, ?_⟩
      · intro v
        rw [h3]
        constructor
        · rintro ((h | h) | ⟨d, h1, h2, h3⟩)
          · exact Or.inl h
          · exact Or.inr ⟨c, by simp, hv, h⟩
          · exact Or.inr ⟨d, by simp [h1], h2, h3⟩
        · rintro (h | ⟨d, k1, k2, k3⟩)
          · exact Or.inl (Or.inl h)
          · rcases List.mem_cons.1 k1 with rfl | k1
            · exact Or.inl (Or.inr k3)
            · exact Or.inr ⟨d, k1, k2, k3⟩
      · rw [h4]
        constructor
        · rintro ((h | ⟨v, h1, h2⟩) | ⟨d, h1, h2, v, h3, h4, h5⟩)
          · exact Or.inl h
          · exact Or.inr ⟨c, by simp, hv, v, h1, h2⟩
          · exact Or.inr ⟨d, by simp [h1], h2, v, h3, h4, fun h => h5 (Or.inl h)⟩
        · rintro (h | ⟨d, k1, k2, v, k3, k4, k5⟩)
          · exact Or.inl (Or.inl h)
          · rcases List.mem_cons.1 k1 with rfl | k1
            · exact Or.inl (Or.inr ⟨v, k3, k4, k5⟩)
            · by_cases hvc : v ∈ c
              · exact Or.inl (Or.inr ⟨v, hvc, k4, k5⟩)
              · exact Or.inr ⟨d, k1, k2, v, k3, k4, by rintro (h | h); exacts [k5 h, hvc h.1]⟩
    · rename_i hv
      obtain ⟨b, s', h1, h2, h3, h4⟩ := ih s change
      refine ⟨b, s', h1, h2, ?_, ?_⟩
      · intro v
        rw [h3]
        simp [hv]
      · rw [h4]
        simp [hv]

end

section
variable {P K : Type}

/-- The shifts fit: every vertex is visited once and has an entry. -/
def Fits (vs : List Nat) (idx : Nat → Nat) (shifts : List P) : Prop := vs.Nodup ∧ ∀ v ∈ vs, idx v < shifts.length

/-- The interface part of the grid is consistent: every interface vertex is visited once, has an index of its own below the
size of the vector, and end points of interface elements are interface vertices (C20, C22). -/
structure InterfaceFits (g : Grid P K) (shifts : List P) : Prop where
  fits : Fits g.iverts g.iindex shifts
  inj : ∀ v ∈ g.iverts, ∀ w ∈ g.iverts, g.iindex v = g.iindex w → v = w
  ends : ∀ e ∈ g.segs, e.1 ∈ g.iverts ∧ e.2 ∈ g.iverts

end

section
variable {P K : Type} [AddCommGroup P] [Zero K] [LE K] [DecidableLE K]

/-- Moving forth and back. -/
theorem moveList_back (idx : Nat → Nat) (shifts : List P) {vs : List Nat} (hn : vs.Nodup)
    (hr : ∀ v ∈ vs, idx v < shifts.length) (pos pos' : Nat → P) (h : moveList idx shifts vs pos = some pos') :
    moveList idx (shifts.map (- ·)) vs pos' = some pos := by
  obtain ⟨q, h1, h2, h3⟩ := moveList_spec idx shifts hn hr pos
  rw [h] at h1
  simp only [Option.some.injEq] at h1
  subst h1
  obtain ⟨q, k1, k2, k3⟩ := moveList_spec idx (shifts.map (- ·)) hn (by simpa using hr) pos'
  rw [k1]
  congr 1
  funext v
  by_cases hv : v ∈ vs
  · have hi := hr v hv
    rw [k2 v hv (- shifts[idx v]) (by simp [hi]), h2 v hv shifts[idx v] (List.getElem?_eq_getElem hi)]
    abel
  · rw [k3 v hv, h3 v hv]

/-- C32 in 2D, exactly: the call returns, positions are as before; with `moved` the state with the vertices moved, it
returns false iff every vertex of a cell with non-positive volume is on the interface, a corner, or was queued before; the
queue has got the other ones. -/
theorem C32_result (g : Grid P K) (hd : g.dim3 = false) (shifts : List P) (s : State P) (hf : Fits g.verts g.index shifts) :
    ∃ b s' pos, ensureVertexMovement g shifts s = (.returned b, s') ∧ moveVertices g shifts s.pos = some pos ∧
      s'.pos = s.pos ∧
      (b = false ↔ ∀ c ∈ g.cells, g.vol pos c ≤ 0 → ∀ v ∈ c, g.isInterface v = true ∨ IsCorner g s.flag pos v ∨ v ∈ s.remove) ∧
      ∀ v, v ∈ s'.remove ↔ v ∈ s.remove ∨
        ∃ c ∈ g.cells, g.vol pos c ≤ 0 ∧ v ∈ c ∧ g.isInterface v = false ∧ ¬ IsCorner g s.flag pos v := by
  obtain ⟨pos, hm, -, -⟩ := moveList_spec g.index shifts hf.1 hf.2 s.pos
  obtain ⟨b, s', h1, h2, h3, h4⟩ := vertexLoop_spec g hd g.cells { s with pos := pos } false
  have hback := moveList_back g.index shifts hf.1 hf.2 s.pos pos hm
  refine ⟨b, { s' with pos := s.pos }, pos, ?_, hm, rfl, ?_, ?_⟩
  · unfold ensureVertexMovement moveVertices
    rw [hm]
    simp only [h1]
    rw [show s'.pos = pos from h2.pos, hback]
  · rw [← Bool.not_eq_true, h4]
    simp only [Bool.false_eq_true, false_or, Free]
    constructor
    · intro h c hc hv v hvc
      by_contra hno
      simp only [not_or] at hno
      exact h ⟨c, hc, hv, v, hvc, ⟨by simpa using hno.1, hno.2.1⟩, hno.2.2⟩
    · rintro h ⟨c, hc, hv, v, hvc, ⟨h1, h2⟩, h3⟩
      rcases h c hc hv v hvc with h | h | h
      · simp [h1] at h
      · exact h2 h
      · exact h3 h
  · intro v
    rw [h3]
    simp only [Free]

/-- C113 in 2D: if every cell has a vertex that is neither on the interface nor a corner (and not queued before), then the
answer false means that no cell degenerates. Missing: cells without such a vertex. -/
theorem C113_positive_partial (g : Grid P K) (hd : g.dim3 = false) (shifts : List P) (s : State P)
    (hf : Fits g.verts g.index shifts) (pos : Nat → P) (hm : moveVertices g shifts s.pos = some pos)
    (hfree : ∀ c ∈ g.cells, ∃ v ∈ c, g.isInterface v = false ∧ ¬ IsCorner g s.flag pos v ∧ v ∉ s.remove)
    (h : (ensureVertexMovement g shifts s).1 = .returned false) : ∀ c ∈ g.cells, ¬ g.vol pos c ≤ 0 := by
  obtain ⟨b, s', pos', h1, h2, -, h4, -⟩ := C32_result g hd shifts s hf
  rw [hm] at h2
  simp only [Option.some.injEq] at h2
  subst h2
  rw [h1] at h
  simp only [End.returned.injEq] at h
  intro c hc hv
  obtain ⟨v, hvc, a1, a2, a3⟩ := hfree c hc
  rcases h4.1 h c hc hv v hvc with h | h | h
  · rw [a1] at h; simp at h
  · exact a2 h
  · exact a3 h

/-- C32 in 3D: the call either throws or no cell degenerates; if it throws, the vertices stay moved. -/
theorem C32_3d (g : Grid P K) (hd : g.dim3 = true) (shifts : List P) (s : State P) (hf : Fits g.verts g.index shifts)
    (pos : Nat → P) (hm : moveVertices g shifts s.pos = some pos) :
    ((∃ c ∈ g.cells, g.vol pos c ≤ 0) → ensureVertexMovement g shifts s = (.thrown, { s with pos := pos })) ∧
      ((∀ c ∈ g.cells, ¬ g.vol pos c ≤ 0) → ensureVertexMovement g shifts s = (.returned false, s)) := by
  have key : ∀ cs : List (List Nat), vertexLoop g cs { s with pos := pos } false =
      if ∃ c ∈ cs, g.vol pos c ≤ 0 then (.thrown, { s with pos := pos }) else (.returned false, { s with pos := pos }) := by
    intro cs
    induction cs with
    | nil => simp [vertexLoop]
    | cons c cs ih =>
      unfold vertexLoop
      by_cases hc : g.vol pos c ≤ 0
      · simp [hc, hd]
      · simp only [hc, if_false, ih]
        simp [hc]
  constructor
  · intro h
    unfold ensureVertexMovement
    simp only [hm, key]
    rw [if_pos h]
  · intro h
    unfold ensureVertexMovement
    simp only [hm, key]
    rw [if_neg (by rintro ⟨c, hc, hv⟩; exact h c hc hv)]
    simp only
    rw [show moveVertices g (shifts.map (- ·)) pos = some s.pos from moveList_back _ _ hf.1 hf.2 _ _ hm]

/-! ## C31: `ensureInterfaceMovement` -/

/-- What the shifts that are left would undo. -/
structure Undo (g : Grid P K) (pos0 : Nat → P) (pos : Nat → P) (shifts : List P) : Prop where
  moved : ∀ v ∈ g.iverts, ∃ d, shifts[g.iindex v]? = some d ∧ pos v = pos0 v + d
  fixed : ∀ v, v ∉ g.iverts → pos v = pos0 v

theorem removeInterface_spec (g : Grid P K) (c : List Nat) (s : State P) (change all : Bool) :
    (removeInterface g c s change all).1.pos = s.pos ∧ (removeInterface g c s change all).1.cross = s.cross ∧
      (∀ v, v ∈ (removeInterface g c s change all).1.remove ↔ v ∈ s.remove ∨ (v ∈ c ∧ (incident g v).length = 2)) ∧
      ((removeInterface g c s change all).2.1 = true ↔
        change = true ∨ ∃ v ∈ c, (incident g v).length = 2 ∧ v ∉ s.remove) ∧
      ((removeInterface g c s change all).2.2 = true ↔ all = true ∧ ∀ v ∈ c, (incident g v).length ≠ 2) := by
  induction c generalizing s change all with
  | nil => simp [removeInterface]
  | cons w c ih =>
    unfold removeInterface
    split
    · rename_i hw
      obtain ⟨p1, p2, p3⟩ := pushRemove_spec g s change w
      obtain ⟨h1, h2, h3, h4, h5⟩ := ih (pushRemove s change w).1 (pushRemove s change w).2 false
      simp only [p2, p3] at h3 h4
      refine ⟨h1.trans p1.pos, h2.trans p1.cross, ?_, ?_, ?_⟩
      · intro v
        rw [h3]
        constructor
        · rintro ((h | rfl) | ⟨a, b⟩)
          · exact Or.inl h
          · exact Or.inr ⟨by simp, hw⟩
          · exact Or.inr ⟨by simp [a], b⟩
        · rintro (h | ⟨a, b⟩)
          · exact Or.inl (Or.inl h)
          · rcases List.mem_cons.1 a with rfl | a
            · exact Or.inl (Or.inr rfl)
            · exact Or.inr ⟨a, b⟩
      · rw [h4]
        constructor
        · rintro ((h | h) | ⟨v, a, b, c⟩)
          · exact Or.inl h
          · exact Or.inr ⟨w, by simp, hw, h⟩
          · exact Or.inr ⟨v, by simp [a], b, fun h => c (Or.inl h)⟩
        · rintro (h | ⟨v, a, b, c⟩)
          · exact Or.inl (Or.inl h)
          · by_cases hvw : v = w
            · subst hvw
              exact Or.inl (Or.inr c)
            · rcases List.mem_cons.1 a with h | a
              · exact absurd h hvw
              · exact Or.inr ⟨v, a, b, by rintro (h | h); exacts [c h, hvw h]⟩
      · rw [h5]
        constructor
        · intro h; simp at h
        · rintro ⟨-, h⟩
          exact absurd hw (h w (by simp))
    · rename_i hw
      obtain ⟨h1, h2, h3, h4, h5⟩ := ih s change all
      refine ⟨h1, h2, ?_, ?_, ?_⟩
      · intro v
        rw [h3]
        constructor
        · rintro (h | ⟨a, b⟩)
          · exact Or.inl h
          · exact Or.inr ⟨by simp [a], b⟩
        · rintro (h | ⟨a, b⟩)
          · exact Or.inl h
          · rcases List.mem_cons.1 a with rfl | a
            · exact absurd b hw
            · exact Or.inr ⟨a, b⟩
      · rw [h4]; simp [hw]
      · rw [h5]; simp [hw]

theorem badCell_undo (g : Grid P K) (c : List Nat) (s : State P) (shifts : List P) (change : Bool) (pos0 : Nat → P)
    (hf : InterfaceFits g shifts) (hu : Undo g pos0 s.pos shifts) :
    InterfaceFits g (badCell g c s shifts change).2.2.1 ∧
      Undo g pos0 (badCell g c s shifts change).2.1.pos (badCell g c s shifts change).2.2.1 := by
  have hpos := (removeFree_spec g c s change true).1.pos
  unfold badCell
  simp only
  split
  · exact ⟨hf, by simpa only [hpos] using hu⟩
  · split
    · exact ⟨hf, by simpa only [hpos] using hu⟩
    · have hq := (removeInterface_spec g c (removeFree g c s change true).1 (removeFree g c s change true).2.1 true).1
      split
      · exact ⟨hf, by simpa only [hq, hpos] using hu⟩
      · exact ⟨hf, by simpa only [hq, hpos] using hu⟩
    · split
      · exact ⟨hf, by simpa only [hpos] using hu⟩
      · rename_i t ht
        split
        · exact ⟨hf, by simpa only [hpos] using hu⟩
        · exact ⟨hf, by simpa only [hpos] using hu⟩
        · rename_i ce hce
          split
          · exact ⟨hf, by simpa only [hpos] using hu⟩
          · split
            · exact ⟨hf, by simpa only [hpos] using hu⟩
            · rename_i d hd
              have ht : t ∈ g.iverts := by
                have : ce ∈ incident g t := by rw [hce]; simp
                unfold incident at this
                simp only [List.mem_filter, decide_eq_true_eq] at this
                rcases this.2 with h | h
                · rw [← h]; exact (hf.ends ce this.1).1
                · rw [← h]; exact (hf.ends ce this.1).2
              refine ⟨⟨⟨hf.fits.1, by simpa using hf.fits.2⟩, hf.inj, hf.ends⟩, ⟨?_, ?_⟩⟩
              · intro v hv
                by_cases hvt : v = t
                · subst hvt
                  refine ⟨0, by simp [hf.fits.2 v hv], ?_⟩
                  obtain ⟨d', h1, h2⟩ := hu.moved v hv
                  rw [hd] at h1
                  simp only [Option.some.injEq] at h1
                  simp only [if_true, hpos, h2, h1]
                  abel
                · obtain ⟨d', h1, h2⟩ := hu.moved v hv
                  refine ⟨d', ?_, by simp only [if_neg hvt, hpos, h2]⟩
                  rw [List.getElem?_set_ne (fun h => hvt (hf.inj t ht v hv h).symm), h1]
              · intro v hv
                have hvt : v ≠ t := by rintro rfl; exact hv ht
                simp only [if_neg hvt, hpos, hu.fixed v hv]

theorem interfaceLoop_undo (g : Grid P K) (cs : List (List Nat)) (s : State P) (shifts : List P) (change : Bool)
    (pos0 : Nat → P) (hf : InterfaceFits g shifts) (hu : Undo g pos0 s.pos shifts) :
    InterfaceFits g (interfaceLoop g cs s shifts change).2.2 ∧
      Undo g pos0 (interfaceLoop g cs s shifts change).2.1.pos (interfaceLoop g cs s shifts change).2.2 := by
  induction cs generalizing s shifts change with
  | nil => exact ⟨hf, hu⟩
  | cons c cs ih =>
    unfold interfaceLoop
    split
    · split
      · exact ⟨hf, hu⟩
      · obtain ⟨h1, h2⟩ := badCell_undo g c s shifts change pos0 hf hu
        split
        · rename_i heq
          rw [heq] at h1 h2
          exact ⟨h1, h2⟩
        · rename_i heq
          rw [heq] at h1 h2
          exact ih _ _ _ h1 h2
    · exact ih s shifts change hf hu

theorem undo_back (g : Grid P K) (pos0 pos : Nat → P) (shifts : List P) (hf : InterfaceFits g shifts)
    (hu : Undo g pos0 pos shifts) : moveInterface g (shifts.map (- ·)) pos = some pos0 := by
  obtain ⟨q, k1, k2, k3⟩ := moveList_spec g.iindex (shifts.map (- ·)) hf.fits.1 (by simpa using hf.fits.2) pos
  unfold moveInterface
  rw [k1]
  congr 1
  funext v
  by_cases hv : v ∈ g.iverts
  · obtain ⟨d, h1, h2⟩ := hu.moved v hv
    rw [k2 v hv (-d) (by simp [h1]), h2]
    abel
  · rw [k3 v hv, hu.fixed v hv]

/-- C31: when the call has returned, every vertex is where it was, also if crossings were found and vertices were moved back on
the way. -/
theorem C31_returned (g : Grid P K) (shifts : List P) (s : State P) (hf : InterfaceFits g shifts) (b : Bool)
    (s' : State P) (h : ensureInterfaceMovement g shifts s = (.returned b, s')) : s'.pos = s.pos := by
  unfold ensureInterfaceMovement at h
  split at h
  · simp at h
  · obtain ⟨pos, hm, m1, m2⟩ := moveList_spec g.iindex shifts hf.fits.1 hf.fits.2 s.pos
    have hu : Undo g s.pos pos shifts := by
      refine ⟨?_, m2⟩
      intro v hv
      have hi := hf.fits.2 v hv
      exact ⟨shifts[g.iindex v], List.getElem?_eq_getElem hi, m1 v hv _ (List.getElem?_eq_getElem hi)⟩
    simp only [moveInterface, hm] at h
    obtain ⟨h1, h2⟩ := interfaceLoop_undo g g.cells { s with pos := pos } shifts false s.pos hf hu
    split at h
    · rename_i change s1 shifts1 heq
      rw [heq] at h1 h2
      have := undo_back g s.pos s1.pos shifts1 h1 h2
      unfold moveInterface at this
      rw [this] at h
      simp only [Prod.mk.injEq] at h
      rw [← h.2]
    · rename_i e s1 shifts1 hne heq
      simp only [Prod.mk.injEq] at h
      exact (hne _ h.1).elim

/-- The check before moving throws with everything unchanged. -/
theorem C31_invalid_before (g : Grid P K) (shifts : List P) (s : State P) (h : ∃ c ∈ g.cells, g.vol s.pos c ≤ 0) :
    ensureInterfaceMovement g shifts s = (.thrown, s) := by
  unfold ensureInterfaceMovement
  rw [if_pos h]

/-- In 3D the call throws with the interface moved as soon as a cell would degenerate. -/
theorem C112_3d (g : Grid P K) (hd : g.dim3 = true) (shifts : List P) (s : State P) (pos : Nat → P)
    (h0 : ∀ c ∈ g.cells, ¬ g.vol s.pos c ≤ 0) (hm : moveInterface g shifts s.pos = some pos)
    (h : ∃ c ∈ g.cells, g.vol pos c ≤ 0) : ensureInterfaceMovement g shifts s = (.thrown, { s with pos := pos }) := by
  have key : ∀ cs : List (List Nat), (∃ c ∈ cs, g.vol pos c ≤ 0) →
      interfaceLoop g cs { s with pos := pos } shifts false = (.thrown, { s with pos := pos }, shifts) := by
    intro cs
    induction cs with
    | nil => rintro ⟨c, hc, -⟩; simp at hc
    | cons c cs ih =>
      intro h
      unfold interfaceLoop
      by_cases hc : g.vol pos c ≤ 0
      · simp [hc, hd]
      · simp only [hc, if_false]
        apply ih
        obtain ⟨d, h1, h2⟩ := h
        rcases List.mem_cons.1 h1 with rfl | h1
        · exact absurd h2 hc
        · exact ⟨d, h1, h2⟩
  unfold ensureInterfaceMovement
  rw [if_neg (by rintro ⟨c, hc, hv⟩; exact h0 c hc hv)]
  simp only [hm, key g.cells h]

/-- If no cell degenerates, the call returns false with everything unchanged. -/
theorem C31_unchanged (g : Grid P K) (shifts : List P) (s : State P) (hf : Fits g.iverts g.iindex shifts) (pos : Nat → P)
    (h0 : ∀ c ∈ g.cells, ¬ g.vol s.pos c ≤ 0) (hm : moveInterface g shifts s.pos = some pos) (h : ∀ c ∈ g.cells, ¬ g.vol pos c ≤ 0) :
    ensureInterfaceMovement g shifts s = (.returned false, s) := by
  have key : ∀ cs : List (List Nat), (∀ c ∈ cs, ¬ g.vol pos c ≤ 0) →
      interfaceLoop g cs { s with pos := pos } shifts false = (.returned false, { s with pos := pos }, shifts) := by
    intro cs
    induction cs with
    | nil => exact fun _ => rfl
    | cons c cs ih =>
      intro h
      unfold interfaceLoop
      rw [if_neg (h c (by simp))]
      exact ih fun d hd => h d (by simp [hd])
  unfold ensureInterfaceMovement
  rw [if_neg (by rintro ⟨c, hc, hv⟩; exact h0 c hc hv)]
  simp only [hm, key g.cells h]
  rw [show moveInterface g (shifts.map (- ·)) pos = some s.pos from moveList_back _ _ hf.1 hf.2 _ _ hm]

/-! ## C60: the answer of `ensureInterfaceMovement` -/

theorem badCell_change (g : Grid P K) (c : List Nat) (s : State P) (shifts : List P)
    (h : (badCell g c s shifts true).1 = none) : (badCell g c s shifts true).2.2.2 = true := by
  have hr := ((removeFree_spec g c s true true).2.2.1).2 (Or.inl rfl)
  have hq := ((removeInterface_spec g c (removeFree g c s true true).1 (removeFree g c s true true).2.1 true).2.2.2.1).2
    (Or.inl hr)
  revert h
  unfold badCell
  simp only
  split
  · intro _; exact hr
  · split
    · simp
    · split
      · simp
      · intro _; exact hq
    · split
      · simp
      · split
        · simp
        · simp
        · split
          · intro _; exact hr
          · split
            · simp
            · simp

theorem interfaceLoop_change (g : Grid P K) (cs : List (List Nat)) (s : State P) (shifts : List P) (b : Bool)
    (h : (interfaceLoop g cs s shifts true).1 = .returned b) : b = true := by
  induction cs generalizing s shifts with
  | nil => simpa [interfaceLoop, eq_comm] using h
  | cons c cs ih =>
    unfold interfaceLoop at h
    split at h
    · split at h
      · simp at h
      · split at h
        · rename_i e s' sh' ch' heq
          simp only at h
          -- a cell never ends the loop with a return
          have : ∀ b, (badCell g c s shifts true).1 ≠ some (.returned b) := by
            intro b
            unfold badCell
            simp only
            repeat' split
            all_goals simp
          rw [heq] at this
          simp only at this
          rw [h] at this
          exact absurd rfl (this b)
        · rename_i s' sh' ch' heq
          have := badCell_change g c s shifts (by rw [heq])
          rw [heq] at this
          simp only at this
          subst this
          exact ih _ _ h
    · exact ih _ _ h

/-- No crossing is discarded at the positions `pos`: whenever an element has no positive volume, one of its edges `e` is an interface element and its third
vertex `t` is an end of an interface element `ce`, the point where the lines through `e` and `ce` meet lies on `e`. -/
def NoneDiscarded (g : Grid P K) (pos : Nat → P) : Prop := ∀ c ∈ g.cells, g.vol pos c ≤ 0 → ∀ e, e ∈ g.segs ∨ (e.2, e.1) ∈ g.segs → e.1 ∈ c → e.2 ∈ c →
  ∀ t ∈ c, t ≠ e.1 → t ≠ e.2 → ∀ ce ∈ g.segs, ce.1 = t ∨ ce.2 = t → g.outside pos e ce = false

theorem mem_interfaceEdges (g : Grid P K) {c : List Nat} {e : Nat × Nat} (h : e ∈ interfaceEdges g c) :
    (e ∈ g.segs ∨ (e.2, e.1) ∈ g.segs) ∧ e.1 ∈ c ∧ e.2 ∈ c := by
  unfold interfaceEdges at h
  split at h
  · rw [List.mem_filter] at h
    refine ⟨by simpa using h.2, ?_⟩
    have := h.1
    simp only [List.mem_cons, List.not_mem_nil, or_false] at this
    rcases this with rfl | rfl | rfl <;> simp
  · simp at h

theorem thirdVertex_spec {e : Nat × Nat} {c : List Nat} {t : Nat} (h : thirdVertex e c = some t) : t ∈ c ∧ t ≠ e.1 ∧ t ≠ e.2 := by
  unfold thirdVertex at h
  refine ⟨by simpa using List.mem_of_find?_eq_some h, ?_⟩
  simpa using List.find?_some h

theorem badCell_first (g : Grid P K) (c : List Nat) (s : State P) (shifts : List P) (hrem : s.remove = [])
    (hc : c ∈ g.cells) (hvol : g.vol s.pos c ≤ 0) (hout : NoneDiscarded g s.pos) (h : (badCell g c s shifts false).1 = none) :
    (badCell g c s shifts false).2.2.2 = true := by
  obtain ⟨r1, r2, r3, r4⟩ := removeFree_spec g c s false true
  obtain ⟨-, -, -, q4, q5⟩ := removeInterface_spec g c (removeFree g c s false true).1 (removeFree g c s false true).2.1 true
  revert h
  unfold badCell
  simp only
  split
  · rename_i hall
    intro _
    simp only
    rw [r3]
    right
    by_contra hno
    have : (removeFree g c s false true).2.2 = true := by
      rw [r4]
      refine ⟨rfl, fun v hv hfr => hno ⟨v, hv, hfr, by simp [hrem]⟩⟩
    rw [this] at hall
    simp at hall
  · rename_i hall
    have hall : (removeFree g c s false true).2.2 = true := by simpa using hall
    have hnone : ∀ v, v ∉ (removeFree g c s false true).1.remove := by
      intro v hv
      rcases (r2 v).1 hv with h | h
      · simp [hrem] at h
      · exact (r4.1 hall).2 v h.1 h.2
    split
    · simp
    · split
      · simp
      · rename_i hq
        intro _
        simp only
        rw [q4]
        right
        by_contra hno
        apply hq
        rw [q5]
        exact ⟨rfl, fun v hv hl => hno ⟨v, hv, hl, hnone v⟩⟩
    · rename_i e he
      split
      · simp
      · rename_i t ht
        split
        · simp
        · simp
        · rename_i ce hce
          obtain ⟨e1, e2, e3⟩ := mem_interfaceEdges g (c := c) (e := e) (by rw [he]; simp)
          obtain ⟨t1, t2, t3⟩ := thirdVertex_spec ht
          have hi : ce ∈ incident g t := by rw [hce]; simp
          rw [incident, List.mem_filter] at hi
          rw [r1.pos, hout c hc hvol e e1 e2 e3 t t1 t2 t3 ce hi.1 (by simpa using hi.2)]
          simp only [Bool.false_eq_true, if_false]
          split
          · simp
          · simp

theorem interfaceLoop_first (g : Grid P K) (cs : List (List Nat)) (hcs : ∀ c ∈ cs, c ∈ g.cells) (s : State P) (shifts : List P) (hrem : s.remove = [])
    (hout : NoneDiscarded g s.pos) (h : (interfaceLoop g cs s shifts false).1 = .returned false) :
    ∀ c ∈ cs, ¬ g.vol s.pos c ≤ 0 := by
  induction cs with
  | nil => simp
  | cons c cs ih =>
    unfold interfaceLoop at h
    split at h
    · rename_i hvol
      exfalso
      split at h
      · simp at h
      · split at h
        · rename_i e s' sh' ch' heq
          simp only at h
          have : ∀ b, (badCell g c s shifts false).1 ≠ some (.returned b) := by
            intro b
            unfold badCell
            simp only
            repeat' split
            all_goals simp
          rw [heq] at this
          simp only at this
          rw [h] at this
          exact absurd rfl (this false)
        · rename_i s' sh' ch' heq
          have := badCell_first g c s shifts hrem (hcs c (by simp)) hvol hout (by rw [heq])
          rw [heq] at this
          simp only at this
          subst this
          exact absurd (interfaceLoop_change g cs s' sh' false h) (by simp)
    · rename_i hv
      intro d hd
      rcases List.mem_cons.1 hd with rfl | hd
      · exact hv
      · exact ih (fun c hc => hcs c (by simp [hc])) h d hd

/-- C60 if no vertex is queued for removal before the call and no crossing is discarded because its point is not on the
interface edge. -/
theorem C60_positive (g : Grid P K) (shifts : List P) (s : State P) (hrem : s.remove = []) (pos : Nat → P)
    (hout : NoneDiscarded g pos) (hm : moveInterface g shifts s.pos = some pos) (h : (ensureInterfaceMovement g shifts s).1 = .returned false) :
    ∀ c ∈ g.cells, ¬ g.vol pos c ≤ 0 := by
  unfold ensureInterfaceMovement at h
  split at h
  · simp at h
  · simp only [hm] at h
    have : (interfaceLoop g g.cells { s with pos := pos } shifts false).1 = .returned false := by
      split at h
      · rename_i change s' sh' heq
        rw [heq]
        split at h
        · simp at h
        · exact h
      · rename_i e s' sh' hne heq
        rw [heq]
        exact h
    exact interfaceLoop_first g g.cells (fun _ h => h) { s with pos := pos } shifts hrem hout this

end

/-! ## Cases -/

/-- Twice the area of a triangle (2D). -/
def area2 (pos : Nat → ℤ × ℤ) : List Nat → ℤ
  | [a, b, c] => ((pos b).1 - (pos a).1) * ((pos c).2 - (pos a).2) - ((pos b).2 - (pos a).2) * ((pos c).1 - (pos a).1)
  | _ => 0

/-- Six times the volume of a tetrahedron (3D). -/
def volume6 (pos : Nat → ℤ × ℤ × ℤ) : List Nat → ℤ
  | [a, b, c, d] =>
    let u := pos b - pos a
    let v := pos c - pos a
    let w := pos d - pos a
    u.1 * (v.2.1 * w.2.2 - v.2.2 * w.2.1) - u.2.1 * (v.1 * w.2.2 - v.2.2 * w.1) + u.2.2 * (v.1 * w.2.1 - v.2.1 * w.1)
  | _ => 0

/-- The intersection point `x = c0 + t (c1 - c0)` of two lines is outside of the first edge: `(c0 - x) * (c1 - x) > 0`, that
is t < 0 or t > 1, with t = num / den. -/
def outside2 (pos : Nat → ℤ × ℤ) (e ce : Nat × Nat) : Bool :=
  let d := pos e.2 - pos e.1
  let f := pos ce.2 - pos ce.1
  let w := pos ce.1 - pos e.1
  let den := d.1 * f.2 - d.2 * f.1
  let num := w.1 * f.2 - w.2 * f.1
  decide (num * den < 0 ∨ 0 < (num - den) * den)

/-- A grid in the plane. -/
def planar (verts : List Nat) (iverts : List Nat) (cells : List (List Nat)) (segs : List (Nat × Nat)) (corners : List Nat) :
    Grid (ℤ × ℤ) ℤ where
  dim3 := false
  verts := verts
  index := fun v => v
  iverts := iverts
  iindex := fun v => iverts.idxOf v
  cells := cells
  isInterface := fun v => decide (v ∈ iverts)
  segs := segs
  corner := fun _ v => decide (v ∈ corners)
  vol := area2
  outside := outside2

/-- Positions from a list. -/
def at' (l : List (ℤ × ℤ)) : Nat → ℤ × ℤ := fun v => l.getD v (0, 0)

/-- A bend of the interface: vertex 1 above the edge from 0 to 2. -/
def bend : Grid (ℤ × ℤ) ℤ := planar [0, 1, 2, 3, 4] [0, 1, 2] [[0, 2, 1], [0, 1, 4], [1, 2, 4], [0, 3, 2]] [(0, 1), (1, 2)] [3, 4]

def bendState : State (ℤ × ℤ) := ⟨at' [(0, 0), (2, 1), (4, 0), (2, -4), (2, 5)], fun _ => none, [], []⟩

theorem bend_fits : InterfaceFits bend [(0, 0), (0, -2), (0, 0)] := ⟨⟨by decide, by decide⟩, by decide, by decide⟩

/-- C112 is false: the interface is moved across the edge, which gives a cell with two interface edges, so an exception is
thrown and vertex 1 is left at the moved position. -/
theorem C112_thrown_false : ¬ ∀ (g : Grid (ℤ × ℤ) ℤ) (shifts : List (ℤ × ℤ)) (s : State (ℤ × ℤ)), InterfaceFits g shifts →
    (∀ c ∈ g.cells, 0 < g.vol s.pos c) → ∀ v, (ensureInterfaceMovement g shifts s).2.pos v = s.pos v := by
  intro h
  exact absurd (h bend [(0, 0), (0, -2), (0, 0)] bendState bend_fits (by decide) 1) (by decide)

/-- The interface edge (0, 1) faces the corner 2 of the domain. -/
def facing : Grid (ℤ × ℤ) ℤ :=
  planar [0, 1, 2, 3, 4] [0, 1] [[2, 1, 0], [2, 3, 1], [2, 0, 4], [1, 3, 4], [1, 4, 0]] [(0, 1)] [2, 3, 4]

def facingState : State (ℤ × ℤ) := ⟨at' [(1, 2), (2, 1), (0, 0), (8, 0), (0, 8)], fun _ => none, [], []⟩

/-- C112 is false: if the interface is moved across a corner of the domain, the corner is taken for an interface vertex, a
default constructed entity is used and the behaviour is undefined. -/
theorem C112_undefined_false : ¬ ∀ (g : Grid (ℤ × ℤ) ℤ) (shifts : List (ℤ × ℤ)) (s : State (ℤ × ℤ)), InterfaceFits g shifts →
    (∀ c ∈ g.cells, 0 < g.vol s.pos c) → (ensureInterfaceMovement g shifts s).1 ≠ .undefined := by
  intro h
  exact absurd (h facing [(-3, -3), (-3, -3)] facingState ⟨⟨by decide, by decide⟩, by decide, by decide⟩ (by decide))
    (by decide)

/-- C113 is false: the cell between the interface edge and the corner becomes negative, none of its vertices may be
removed, and the answer is false. -/
theorem C113_positive_false : ¬ ∀ (g : Grid (ℤ × ℤ) ℤ) (shifts : List (ℤ × ℤ)) (s : State (ℤ × ℤ)) (pos : Nat → ℤ × ℤ),
    Fits g.verts g.index shifts → (∀ c ∈ g.cells, 0 < g.vol s.pos c) → s.remove = [] →
      moveVertices g shifts s.pos = some pos → (ensureVertexMovement g shifts s).1 = .returned false →
      ∀ c ∈ g.cells, 0 < g.vol pos c := by
  intro h
  have := h facing [(-3, -3), (-3, -3), (0, 0), (0, 0), (0, 0)] facingState _ ⟨by decide, by decide⟩ (by decide) rfl rfl
    (by decide) [2, 1, 0] (by decide)
  exact absurd this (by decide)

/-- A single tetrahedron. -/
def tet : Grid (ℤ × ℤ × ℤ) ℤ where
  dim3 := true
  verts := [0, 1, 2, 3]
  index := fun v => v
  iverts := []
  iindex := fun v => v
  cells := [[0, 1, 2, 3]]
  isInterface := fun _ => false
  segs := []
  corner := fun _ _ => true
  vol := volume6
  outside := fun _ _ _ => false

def tetState : State (ℤ × ℤ × ℤ) :=
  ⟨fun v => [(0, 0, 0), (1, 0, 0), (0, 1, 0), (0, 0, 1)].getD v (0, 0, 0), fun _ => none, [], []⟩

/-- C113 is false in 3D: the exception leaves the vertices moved. -/
theorem C113_unchanged_false : ¬ ∀ (g : Grid (ℤ × ℤ × ℤ) ℤ) (shifts : List (ℤ × ℤ × ℤ)) (s : State (ℤ × ℤ × ℤ)),
    Fits g.verts g.index shifts → (∀ c ∈ g.cells, 0 < g.vol s.pos c) →
      ∀ v, (ensureVertexMovement g shifts s).2.pos v = s.pos v := by
  intro h
  exact absurd (h tet [(0, 0, 0), (0, 0, 0), (0, 0, 0), (0, 0, -2)] tetState ⟨by decide, by decide⟩ (by decide) 3) (by decide)

/-- A tip 2 of the interface element (2, 3) that is moved across the line of the interface element (0, 1), but not through
the element. -/
def passing : Grid (ℤ × ℤ) ℤ :=
  planar [0, 1, 2, 3, 4, 5] [0, 1, 2, 3] [[0, 1, 2], [0, 4, 1], [1, 3, 2], [2, 3, 5]] [(0, 1), (2, 3)] [4, 5]

def passingState : State (ℤ × ℤ) := ⟨at' [(0, 0), (2, 0), (5, 1), (9, -3), (1, -5), (9, 5)], fun _ => none, [], []⟩

/-- C184 is false: the crossing is discarded, although the cell has become negative. -/
theorem C184_outside_false : ¬ ∀ (g : Grid (ℤ × ℤ) ℤ) (shifts : List (ℤ × ℤ)) (s : State (ℤ × ℤ)) (pos : Nat → ℤ × ℤ),
    InterfaceFits g shifts → (∀ c ∈ g.cells, 0 < g.vol s.pos c) → s.remove = [] → moveInterface g shifts s.pos = some pos →
      (ensureInterfaceMovement g shifts s).1 = .returned false → ∀ c ∈ g.cells, 0 < g.vol pos c := by
  intro h
  have := h passing [(0, 0), (0, 0), (0, -2), (0, 0)] passingState _ ⟨⟨by decide, by decide⟩, by decide, by decide⟩
    (by decide) rfl rfl (by decide) [0, 1, 2] (by decide)
  exact absurd this (by decide)

/-- A vertex 2 above an interface edge. -/
def above : Grid (ℤ × ℤ) ℤ := planar [0, 1, 2, 3, 4] [0, 1] [[0, 1, 2], [0, 2, 3], [2, 1, 3], [0, 4, 1]] [(0, 1)] [3, 4]

def aboveState : State (ℤ × ℤ) := ⟨at' [(0, 0), (4, 0), (2, 1), (2, 6), (2, -6)], fun _ => none, [], []⟩

/-- C184 is false for a second call: the vertex is queued already, so nothing is marked and the answer is false. -/
theorem C184_queued_false : ¬ ∀ (g : Grid (ℤ × ℤ) ℤ) (shifts : List (ℤ × ℤ)) (s : State (ℤ × ℤ)) (pos : Nat → ℤ × ℤ),
    InterfaceFits g shifts → (∀ c ∈ g.cells, 0 < g.vol s.pos c) → moveInterface g shifts s.pos = some pos →
      (ensureInterfaceMovement g shifts s).1 = .returned false → ∀ c ∈ g.cells, 0 < g.vol pos c := by
  intro h
  have := h above [(0, 2), (0, 2)] (ensureInterfaceMovement above [(0, 2), (0, 2)] aboveState).2 _
    ⟨⟨by decide, by decide⟩, by decide, by decide⟩ (by decide) rfl (by decide) [0, 1, 2] (by decide)
  exact absurd this (by decide)

/-- Non-trivial calls that return: a vertex is queued, a crossing is found and the tip is moved back on the way. -/
example : (ensureInterfaceMovement above [(0, 2), (0, 2)] aboveState).1 = .returned true ∧
    (ensureInterfaceMovement above [(0, 2), (0, 2)] aboveState).2.remove = [2] ∧
    InterfaceFits above [(0, 2), (0, 2)] :=
  ⟨by decide, by decide, ⟨by decide, by decide⟩, by decide, by decide⟩

/-- A tip 2 of the element (2, 3) above the middle of the element (0, 1). -/
def tipCase : Grid (ℤ × ℤ) ℤ :=
  planar [0, 1, 2, 3, 4] [0, 1, 2, 3] [[0, 1, 2], [0, 2, 3], [2, 1, 3], [0, 4, 1]] [(0, 1), (2, 3)] [4]

def tipState : State (ℤ × ℤ) := ⟨at' [(0, 0), (4, 0), (2, 1), (2, 6), (2, -6)], fun _ => none, [], []⟩

example : (ensureInterfaceMovement tipCase [(0, 0), (0, 0), (0, -3), (0, 0)] tipState).1 = .returned true ∧
    (ensureInterfaceMovement tipCase [(0, 0), (0, 0), (0, -3), (0, 0)] tipState).2.cross = [((0, 1), 2)] ∧
    (ensureInterfaceMovement tipCase [(0, 0), (0, 0), (0, -3), (0, 0)] tipState).2.pos 2 = (2, 1) ∧
    InterfaceFits tipCase [(0, 0), (0, 0), (0, -3), (0, 0)] :=
  ⟨by decide, by decide, by decide, ⟨by decide, by decide⟩, by decide, by decide⟩

/-- The hypotheses of `C60_positive`: the tip is moved to the right and no element degenerates. Moved down, it is a crossing on the element (0, 1). -/
example : (ensureInterfaceMovement tipCase [(0, 0), (0, 0), (1, 0), (0, 0)] tipState).1 = .returned false ∧
    (∃ pos, moveInterface tipCase [(0, 0), (0, 0), (1, 0), (0, 0)] tipState.pos = some pos ∧ pos 2 = (3, 1) ∧ NoneDiscarded tipCase pos) ∧
    outside2 (at' [(0, 0), (4, 0), (2, -2), (2, 6), (2, -6)]) (0, 1) (2, 3) = false := by
  refine ⟨by decide, ⟨_, rfl, by decide, ?_⟩, by decide⟩
  intro c hc hv
  exfalso
  revert c
  decide

/-- The hypotheses of `C32_result` and `C113_positive_partial` are met by a movement that degenerates no cell. -/
example : Fits above.verts above.index [(0, 0), (0, 0), (1, 1), (0, 0), (0, 0)] ∧
    (ensureVertexMovement above [(0, 0), (0, 0), (1, 1), (0, 0), (0, 0)] aboveState).1 = .returned false ∧
    (ensureVertexMovement above [(0, 0), (0, 0), (1, -5), (0, 0), (0, 0)] aboveState).1 = .returned true :=
  ⟨⟨by decide, by decide⟩, by decide, by decide⟩

/-! ## Rounding -/

/-- Rational numbers with an addition that rounds. -/
structure Rounded (rnd : ℚ → ℚ) where
  val : ℚ

instance (rnd : ℚ → ℚ) : Add (Rounded rnd) := ⟨fun a b => ⟨rnd (a.val + b.val)⟩⟩
instance (rnd : ℚ → ℚ) : Sub (Rounded rnd) := ⟨fun a b => ⟨rnd (a.val - b.val)⟩⟩
instance (rnd : ℚ → ℚ) : Neg (Rounded rnd) := ⟨fun a => ⟨-a.val⟩⟩
instance (rnd : ℚ → ℚ) : Zero (Rounded rnd) := ⟨⟨0⟩⟩

/-- A grid on a line with one vertex. -/
def single (rnd : ℚ → ℚ) : Grid (Rounded rnd) ℤ where
  dim3 := false
  verts := [0]
  index := fun v => v
  iverts := [0]
  iindex := fun v => v
  cells := []
  isInterface := fun _ => true
  segs := []
  corner := fun _ _ => false
  vol := fun _ _ => 1
  outside := fun _ _ _ => false

/-- C112 and C32 hold for exact arithmetic only: with any addition that absorbs 2^-60 next to 1 (as doubles do), a vertex at
2^-60 that is moved by 1 and back ends at 0. -/
theorem C112_rounding_false (rnd : ℚ → ℚ) (h1 : rnd (1 / 2 ^ 60 + 1) = 1) (h0 : rnd 0 = 0) :
    ¬ ∀ (g : Grid (Rounded rnd) ℤ) (shifts : List (Rounded rnd)) (s : State (Rounded rnd)) (b : Bool) (s' : State (Rounded rnd)),
      InterfaceFits g shifts → ensureInterfaceMovement g shifts s = (.returned b, s') → s'.pos = s.pos := by
  intro h
  have hs : ensureInterfaceMovement (single rnd) [⟨1⟩] ⟨fun _ => ⟨1 / 2 ^ 60⟩, fun _ => none, [], []⟩ =
      (.returned false, ⟨fun x => if x = 0 then (if x = 0 then (⟨1 / 2 ^ 60⟩ : Rounded rnd) + ⟨1⟩ else ⟨1 / 2 ^ 60⟩) + -⟨1⟩ else
        (if x = 0 then (⟨1 / 2 ^ 60⟩ : Rounded rnd) + ⟨1⟩ else ⟨1 / 2 ^ 60⟩), fun _ => none, [], []⟩) := by
    unfold ensureInterfaceMovement
    rw [if_neg (by simp [single])]
    rfl
  have := h _ _ _ _ _ ⟨⟨by simp [single], by simp [single]⟩, by simp [single], by simp [single]⟩ hs
  have := congrArg Rounded.val (congrFun this 0)
  simp only [if_true] at this
  have e : ((⟨1 / 2 ^ 60⟩ : Rounded rnd) + ⟨1⟩ + -⟨1⟩).val = rnd (rnd (1 / 2 ^ 60 + 1) + -1) := rfl
  rw [e, h1] at this
  norm_num at this
  rw [h0] at this
  norm_num at this

end Verif.Movement
