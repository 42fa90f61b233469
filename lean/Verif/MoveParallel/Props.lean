import Verif.MoveParallel.Model
import Verif.Movement.Props
import Verif.PartIter.Props
import Mathlib.Algebra.Group.Int.Defs

/-!
# C213, C214: movement of the mesh on several processes
-/

namespace Verif.MoveParallel

open Verif Parallel PartIter

/-! ## Specification -/

/-- The call of `moveVertices` (`moveInterface` if `i` is true) means the displacement `d`: every process passes a vector with the displacement of the vertex at the
index of each of its (interface) vertices. -/
def Means {P : Type} (n : Net) (c : Call P) (i : Bool) (d : Nat → P) : Prop :=
  c.onInterface = i ∧ ∀ p, ∀ v ∈ (if i then interfaceVertices n p else vertices n p), (c.shifts p)[if i then n.iindex p v else n.index p v]? = some (d v)

/-- The calls mean these displacements, one after the other. -/
def AllMean {P : Type} (n : Net) (cs : List (Call P)) (ds : List (Bool × (Nat → P))) : Prop := List.Forall₂ (fun c d => Means n c d.1 d.2) cs ds

/-- Where a vertex should be after the displacements: all move all vertices, or all interface vertices. -/
def target {P : Type} [Add P] (n : Net) (v : Nat) : List (Bool × (Nat → P)) → P → P
  | [], x => x
  | d :: ds, x => target n v ds (if d.1 = true ∧ n.istar v = [] then x else x + d.2 v)

/-- Valid meshes: the elements at a vertex are connected by facets, the interface elements at a vertex are connected by common vertices (2D) or edges (3D), and the elements on the sides
of an interface element contain its vertices. -/
structure Ok (n : Net) : Prop where
  wf : n.mesh.WF
  nodup : n.verts.Nodup
  star : ∀ v ∈ n.verts, Connected n.mesh.Adj (n.star v)
  istar : ∀ v ∈ n.verts, Connected (SameJoint n.mesh) (n.istar v)
  elems : ∀ v, ∀ e ∈ n.istar v, e ∈ n.mesh.ielems
  ins : ∀ v, ∀ e ∈ n.istar v, n.mesh.ins e ∈ n.star v
  out : ∀ v, ∀ e ∈ n.istar v, ∀ o, n.mesh.out e = some o → o ∈ n.star v

/-- Process `p` has the element (owned or as a ghost). -/
def Has (n : Net) (p c : Nat) : Prop := n.mesh.rank c = p ∨ IsGhost n.mesh p c

/-- Process `p` has the interface element. -/
def HasInterface (n : Net) (p e : Nat) : Prop := n.mesh.rank (n.mesh.ins e) = p ∨ IsInterfaceGhost n.mesh p e

/-! ## Proofs -/

theorem items_nodup {α : Type} {part : α → Int} {pi : PIType} {l : List α} (h : l.Nodup) : (items part pi l).Nodup := by
  unfold items
  rw [Iterate.rangeFor_eq_filter]
  exact h.filter _

theorem mem_vertices {n : Net} (h : Ok n) {p v c : Nat} (hv : v ∈ n.verts) (hc : c ∈ n.star v) (hp : Has n p c) : v ∈ vertices n p := by
  unfold vertices
  rw [mem_items]
  refine ⟨hv, ?_⟩
  obtain ⟨h1, h2⟩ := C160_vertices h.wf p (List.mem_singleton_self (n.star v)) (h.star v hv) hc
  rcases hp with hp | hp
  · have := (mem_items.1 (h1 hp)).2
    revert this
    generalize vertexPart (compute n.mesh p) (n.star v) = x
    unfold contains
    split <;> simp
  · exact (mem_items.1 (h2 hp)).2

theorem mem_interfaceVertices {n : Net} (h : Ok n) {p v e : Nat} (hv : v ∈ n.verts) (he : e ∈ n.istar v) (hp : HasInterface n p e) : v ∈ interfaceVertices n p := by
  unfold interfaceVertices
  rw [mem_items]
  refine ⟨hv, ?_⟩
  rw [if_neg (List.ne_nil_of_mem he)]
  obtain ⟨h1, h2⟩ := C160_interface_vertices h.wf p (List.mem_singleton_self (n.istar v)) (h.elems v) (h.istar v hv) he
  rcases hp with hp | hp
  · have := (mem_items.1 (h1 hp)).2
    revert this
    generalize interfaceVertexPart (compute n.mesh p) (n.istar v) = x
    unfold contains
    split <;> simp
  · exact (mem_items.1 (h2 hp)).2

section
variable {P : Type} [Add P]

/-- One call on one process. -/
theorem move_spec {n : Net} (hn : n.verts.Nodup) {c : Call P} {i : Bool} {d : Nat → P} (h : Means n c i d) (p : Nat) (pos : Nat → P) :
    ∃ pos', move n p c pos = some pos' ∧ (∀ v ∈ (if i then interfaceVertices n p else vertices n p), pos' v = pos v + d v) ∧
      ∀ v, v ∉ (if i then interfaceVertices n p else vertices n p) → pos' v = pos v := by
  obtain ⟨rfl, h⟩ := h
  have h := h p
  unfold move
  cases hc : c.onInterface
  · simp only [hc, Bool.false_eq_true, if_false] at h ⊢
    obtain ⟨pos', h1, h2, h3⟩ := Movement.moveList_spec (n.index p) (c.shifts p) (items_nodup hn : (vertices n p).Nodup)
      (fun v hv => (List.getElem?_eq_some_iff.1 (h v hv)).1) pos
    exact ⟨pos', h1, fun v hv => h2 v hv _ (h v hv), h3⟩
  · simp only [hc, if_true] at h ⊢
    obtain ⟨pos', h1, h2, h3⟩ := Movement.moveList_spec (n.iindex p) (c.shifts p) (items_nodup hn : (interfaceVertices n p).Nodup)
      (fun v hv => (List.getElem?_eq_some_iff.1 (h v hv)).1) pos
    exact ⟨pos', h1, fun v hv => h2 v hv _ (h v hv), h3⟩

/-- Any number of calls on one process: vertices that the process has, and has as interface vertices if they are on the interface and the interface is moved, get to
their target. -/
theorem run_spec {n : Net} (hn : n.verts.Nodup) (p : Nat) : ∀ {cs : List (Call P)} {ds : List (Bool × (Nat → P))}, AllMean n cs ds → ∀ pos : Nat → P,
    ∃ pos', run n p cs pos = some pos' ∧
      ∀ v ∈ vertices n p, (n.istar v = [] ∨ v ∈ interfaceVertices n p ∨ ∀ d ∈ ds, d.1 = false) → pos' v = target n v ds (pos v) := by
  intro cs ds h
  induction h with
  | nil => exact fun pos => ⟨pos, rfl, fun _ _ _ => rfl⟩
  | @cons c d cs ds hc _ ih =>
    intro pos
    obtain ⟨pos1, h1, h2, h3⟩ := move_spec hn hc p pos
    obtain ⟨pos', h4, h5⟩ := ih pos1
    refine ⟨pos', by simp [run, h1, h4], fun v hv hi => ?_⟩
    have hi' : n.istar v = [] ∨ v ∈ interfaceVertices n p ∨ ∀ d ∈ ds, d.1 = false := by
      rcases hi with hi | hi | hi
      · exact Or.inl hi
      · exact Or.inr (Or.inl hi)
      · exact Or.inr (Or.inr fun d hd => hi d (by simp [hd]))
    rw [h5 v hv hi', target]
    congr 1
    cases hd : d.1
    · simp only [hd, Bool.false_eq_true, if_false] at h2
      simpa using h2 v hv
    · simp only [hd, if_true] at h2 h3
      by_cases hs : n.istar v = []
      · rw [if_pos ⟨rfl, hs⟩]
        refine h3 v fun hv' => ?_
        unfold interfaceVertices at hv'
        rw [mem_items, if_pos hs, contains_absent] at hv'
        exact absurd hv'.2 (by simp)
      · rw [if_neg fun h => hs h.2]
        rcases hi with hi | hi | hi
        · exact absurd hi hs
        · exact h2 v hi
        · exact absurd (hi d (by simp)) (by simp [hd])

/-! ## C213 -/

/-- **C213** After any number of calls of `moveVertices`, with the same displacement of each vertex on all processes, every vertex of every element that a process has is there where it
is in a serial run. -/
theorem C213_moveVertices {n : Net} (h : Ok n) {cs : List (Call P)} {ds : List (Bool × (Nat → P))} (hm : AllMean n cs ds) (hk : ∀ d ∈ ds, d.1 = false)
    (p : Nat) (pos : Nat → P) :
    ∃ pos', run n p cs pos = some pos' ∧ ∀ c, Has n p c → ∀ v ∈ n.verts, c ∈ n.star v → pos' v = target n v ds (pos v) := by
  obtain ⟨pos', h1, h2⟩ := run_spec h.nodup p hm pos
  exact ⟨pos', h1, fun c hc v hv hcv => h2 v (mem_vertices h hv hcv hc) (Or.inr (Or.inr hk))⟩

/-- **C213** Hence two processes that have the element, one as a ghost of the other, see it at the same place. -/
theorem C213_agree {n : Net} (h : Ok n) {cs : List (Call P)} {ds : List (Bool × (Nat → P))} (hm : AllMean n cs ds) (hk : ∀ d ∈ ds, d.1 = false)
    {p q : Nat} {pos posp posq : Nat → P} (hp : run n p cs pos = some posp) (hq : run n q cs pos = some posq) {c v : Nat} (hc : Has n p c) (hc' : Has n q c)
    (hv : v ∈ n.verts) (hcv : c ∈ n.star v) : posp v = posq v := by
  obtain ⟨pos1, h1, h2⟩ := C213_moveVertices h hm hk p pos
  obtain ⟨pos2, h3, h4⟩ := C213_moveVertices h hm hk q pos
  rw [hp] at h1
  rw [hq] at h3
  cases h1
  cases h3
  rw [h2 c hc v hv hcv, h4 c hc' v hv hcv]

/-- **C213** After any number of calls of `moveVertices` and `moveInterface` the vertices of every interface element that a process has are there where they are in a
serial run. -/
theorem C213_interface {n : Net} (h : Ok n) {cs : List (Call P)} {ds : List (Bool × (Nat → P))} (hm : AllMean n cs ds) (p : Nat) (pos : Nat → P) :
    ∃ pos', run n p cs pos = some pos' ∧ ∀ e, HasInterface n p e → ∀ v ∈ n.verts, e ∈ n.istar v → pos' v = target n v ds (pos v) := by
  obtain ⟨pos', h1, h2⟩ := run_spec h.nodup p hm pos
  refine ⟨pos', h1, fun e he v hv hev => h2 v ?_ (Or.inr (Or.inl (mem_interfaceVertices h hv hev he)))⟩
  rcases he with he | ⟨hne, ⟨o, ho, hr⟩ | hmeet⟩
  · exact mem_vertices h hv (h.ins v e hev) (Or.inl he)
  · exact mem_vertices h hv (h.out v e hev o ho) (Or.inl hr)
  · exact mem_vertices h hv (h.ins v e hev) (Or.inr ⟨hne, Or.inr ⟨e, h.elems v e hev, hne, hmeet, Or.inl rfl⟩⟩)

/-- **C213** The same for vertices that are not on the interface, after any number of calls of both. -/
theorem C213_off {n : Net} (h : Ok n) {cs : List (Call P)} {ds : List (Bool × (Nat → P))} (hm : AllMean n cs ds) (p : Nat) (pos : Nat → P) :
    ∃ pos', run n p cs pos = some pos' ∧ ∀ c, Has n p c → ∀ v ∈ n.verts, c ∈ n.star v → n.istar v = [] → pos' v = target n v ds (pos v) := by
  obtain ⟨pos', h1, h2⟩ := run_spec h.nodup p hm pos
  exact ⟨pos', h1, fun c hc v hv hcv hi => h2 v (mem_vertices h hv hcv hc) (Or.inl hi)⟩

end

/-! ## C214 -/

/-- A square of four triangles around vertex 0, with the vertices 1 to 4 at the corners. The interface is the segment 10 from vertex 0 to vertex 2, between the elements 0 and 1. The
elements 0 and 1 belong to process 0, the elements 2 and 3 to process 1. -/
def tip : Net where
  mesh :=
    { cells := [0, 1, 2, 3]
      facets := [(0, some 1), (1, some 2), (2, some 3), (3, some 0), (0, none), (1, none), (2, none), (3, none)]
      rank := fun c => c * 2 / 4
      ielems := [10]
      ins := fun _ => 0
      out := fun _ => some 1
      joints := [[10], [10]] }
  verts := [0, 1, 2, 3, 4]
  star := fun v => if v = 0 then [0, 1, 2, 3] else if v = 1 then [3, 0] else if v = 2 then [0, 1] else if v = 3 then [1, 2] else if v = 4 then [2, 3] else []
  istar := fun v => if v = 0 ∨ v = 2 then [10] else []
  index := fun _ v => v
  iindex := fun _ v => v / 2

theorem tip_adj : ∀ a b : Nat, a < 4 → b < 4 → (b = (a + 1) % 4 ∨ a = (b + 1) % 4) → tip.mesh.Adj a b := by
  intro a b ha hb h
  unfold Mesh.Adj tip
  simp only [List.mem_cons, Prod.mk.injEq, Option.some.injEq, reduceCtorEq, and_false, List.not_mem_nil, or_false]
  omega

theorem tip_connected {l : List Nat} (h : l = [0, 1, 2, 3] ∨ l = [3, 0] ∨ l = [0, 1] ∨ l = [1, 2] ∨ l = [2, 3]) : Connected tip.mesh.Adj l := by
  have step : ∀ {l : List Nat} {a b : Nat}, a ∈ l → b ∈ l → a < 4 → b < 4 → (b = (a + 1) % 4 ∨ a = (b + 1) % 4) →
      Relation.ReflTransGen (fun x y => x ∈ l ∧ y ∈ l ∧ tip.mesh.Adj x y) a b :=
    fun ha hb h1 h2 h3 => .single ⟨ha, hb, tip_adj _ _ h1 h2 h3⟩
  intro a ha b hb
  rcases h with rfl | rfl | rfl | rfl | rfl
  · simp only [List.mem_cons, List.not_mem_nil, or_false] at ha hb
    have ha' : a ∈ [0, 1, 2, 3] := by simpa using ha
    have hb' : b ∈ [0, 1, 2, 3] := by simpa using hb
    by_cases e : a = b
    · rw [e]
    · by_cases hn : b = (a + 1) % 4 ∨ a = (b + 1) % 4
      · exact step ha' hb' (by omega) (by omega) hn
      · exact (step ha' (b := (a + 1) % 4) (by simp; omega) (by omega) (by omega) (Or.inl rfl)).trans (step (by simp; omega) hb' (by omega) (by omega) (by omega))
  all_goals
    by_cases e : a = b
    · rw [e]
    · refine step ha hb ?_ ?_ ?_ <;> simp only [List.mem_cons, List.not_mem_nil, or_false] at ha hb <;> omega

theorem tip_ok : Ok tip where
  wf :=
    { sides := by
        intro e he o ho
        have : o = 1 := by simpa [tip] using ho.symm
        subst this
        exact Or.inl (by simp [tip])
      joints := by decide }
  nodup := by decide
  star := by
    intro v hv
    refine tip_connected ?_
    simp only [tip, List.mem_cons, List.not_mem_nil, or_false] at hv
    rcases hv with rfl | rfl | rfl | rfl | rfl <;> simp [tip]
  istar := by
    intro v hv a ha b hb
    have key : ∀ x, x ∈ tip.istar v → x = 10 := by
      intro x hx
      unfold tip at hx
      simp only at hx
      split at hx <;> simp at hx
      exact hx
    rw [key a ha, key b hb]
  elems := by
    intro v e he
    unfold tip at he
    simp only at he
    split at he <;> simp at he
    subst he
    decide
  ins := by
    intro v e he
    unfold tip at he
    simp only at he
    split at he
    · rename_i h
      rcases h with rfl | rfl <;> simp [tip]
    · simp at he
  out := by
    intro v e he o ho
    have : o = 1 := by simpa [tip] using ho.symm
    subst this
    unfold tip at he
    simp only at he
    split at he
    · rename_i h
      rcases h with rfl | rfl <;> decide
    · simp at he

/-- Process 0 has the interface, process 1 does not. Both have the vertex 0. -/
theorem tip_vertices : interfaceVertices tip 0 = [0, 2] ∧ interfaceVertices tip 1 = [] ∧ vertices tip 0 = [0, 1, 2, 3, 4] ∧ vertices tip 1 = [0, 1, 2, 3, 4] := by
  simp only [interfaceVertices, vertices, items, Iterate.rangeFor_eq_filter]
  decide

/-- The tip is moved by 1, in coordinates that are integers on a line. -/
def tipCall : Call Int := ⟨true, fun p => if p = 0 then [1, 0] else []⟩

theorem tipCall_means : Means tip tipCall true (fun v => if v = 0 then 1 else 0) := by
  refine ⟨rfl, fun p v hv => ?_⟩
  simp only [if_true] at hv ⊢
  by_cases hp : p = 0
  · subst hp
    rw [tip_vertices.1] at hv
    simp only [List.mem_cons, List.not_mem_nil, or_false] at hv
    rcases hv with rfl | rfl <;> decide
  · exfalso
    unfold interfaceVertices at hv
    rw [mem_items] at hv
    obtain ⟨h1, h2⟩ := hv
    have hne : tip.istar v ≠ [] := fun h => by
      rw [if_pos h, contains_absent] at h2
      cases h2
    have h10 : tip.istar v = [10] := by
      unfold tip at hne ⊢
      simp only at hne ⊢
      split at hne <;> simp_all
    rw [if_neg hne, h10] at h2
    have hip : (compute tip.mesh p).ipart 10 = -1 := by
      have hr : ∀ c, c < 2 → tip.mesh.rank c ≠ p := by
        intro c hc h
        apply hp
        rw [← h]
        change c * 2 / 4 = 0
        omega
      rcases ipart_cases tip_ok.wf p (e := 10) (by decide) with h | h | h
      · exact absurd h.2 (hr 0 (by omega))
      · obtain ⟨-, ⟨o, ho, h⟩ | ⟨j, hj, h10, e', he', h⟩⟩ := h.2
        · have : o = 1 := by simpa [tip] using ho.symm
          subst this
          exact absurd h (hr 1 (by omega))
        · exact absurd h (hr 0 (by omega))
      · exact h.1
    have : interfaceVertexPart (compute tip.mesh p) [10] = -1 := by
      unfold interfaceVertexPart
      simp [hip, classify]
    rw [this, contains_absent] at h2
    cases h2

/-- The displacements of the elements of a vector space for the vertices, then the tip: process 0 sees all of it, and process 1 the first part. -/
def bothCalls : List (Call Int) := [⟨false, fun _ => [5, 6, 7, 8, 9]⟩, tipCall]

theorem bothCalls_mean : AllMean tip bothCalls [(false, fun v => 5 + v), (true, fun v => if v = 0 then 1 else 0)] := by
  refine .cons ⟨rfl, fun p v hv => ?_⟩ (.cons tipCall_means .nil)
  have hv' : v ∈ tip.verts := (mem_items.1 hv).1
  simp only [tip, List.mem_cons, List.not_mem_nil, or_false] at hv'
  rcases hv' with rfl | rfl | rfl | rfl | rfl <;> rfl

example : ∃ pos', run tip 0 bothCalls (fun _ => 0) = some pos' ∧ pos' 0 = 6 ∧ pos' 1 = 6 ∧ pos' 2 = 7 := by
  simp only [run, bothCalls, move, tip_vertices.1, tip_vertices.2.2.1, tipCall, if_true, Bool.false_eq_true, if_false]
  exact ⟨_, rfl, rfl, rfl, rfl⟩

example := C213_moveVertices (P := Int) tip_ok (.cons (List.forall₂_cons.1 bothCalls_mean).1 .nil) (by simp) 1 (fun _ => 0)

example : HasInterface tip 0 10 := Or.inl rfl

example := C213_interface tip_ok bothCalls_mean 0 (fun _ => 0)

example := C213_off tip_ok bothCalls_mean 1 (fun _ => 0)

/-- **C214** (refuted) "After `moveInterface` with the same displacements on all processes, all processes that have an element see its vertices at the same place": the process that has
elements at the tip but no interface element there does not move the tip. -/
theorem C214_moveInterface_false : ¬ ∀ (n : Net), Ok n → ∀ (cs : List (Call Int)) (ds : List (Bool × (Nat → Int))), AllMean n cs ds → ∀ (p q : Nat) (pos posp posq : Nat → Int),
    run n p cs pos = some posp → run n q cs pos = some posq → ∀ c, Has n p c → Has n q c → ∀ v ∈ n.verts, c ∈ n.star v → posp v = posq v := by
  intro h
  have hm : AllMean tip [tipCall] [(true, fun v => if v = 0 then 1 else 0)] := .cons tipCall_means .nil
  obtain ⟨p0, h0⟩ : ∃ f, run tip 0 [tipCall] (fun _ => 0) = some f ∧ f 0 = 1 := by
    simp only [run, move, tip_vertices.1, tipCall, if_true]
    exact ⟨_, rfl, rfl⟩
  obtain ⟨p1, h1⟩ : ∃ f, run tip 1 [tipCall] (fun _ => 0) = some f ∧ f 0 = 0 := by
    simp only [run, move, tip_vertices.2.1, tipCall, if_true]
    exact ⟨_, rfl, rfl⟩
  have := h tip tip_ok _ _ hm 0 1 _ p0 p1 h0.1 h1.1 3 (Or.inr ⟨by decide, Or.inl ⟨0, tip_adj 3 0 (by omega) (by omega) (by omega), by decide⟩⟩) (Or.inl (by decide)) 0 (by decide) (by decide)
  rw [h0.2, h1.2] at this
  exact absurd this (by decide)

/-- **C214** In general: `moveInterface` moves an interface vertex on the processes that have one of its interface elements, and leaves it where it is on all others. -/
theorem C214_stays_partial {P : Type} [Add P] {n : Net} (h : Ok n) {c : Call P} {d : Nat → P} (hm : Means n c true d) (p : Nat) (pos : Nat → P) :
    ∃ pos', move n p c pos = some pos' ∧ ∀ v ∈ n.verts,
      ((∃ e ∈ n.istar v, HasInterface n p e) → pos' v = pos v + d v) ∧ ((∀ e ∈ n.istar v, ¬ HasInterface n p e) → pos' v = pos v) := by
  obtain ⟨pos', h1, h2, h3⟩ := move_spec h.nodup hm p pos
  refine ⟨pos', h1, fun v hv => ?_⟩
  simp only [if_true] at h2 h3
  refine ⟨fun ⟨e, he, hp⟩ => h2 v (mem_interfaceVertices h hv he hp), fun hany => h3 v fun hv' => ?_⟩
  unfold interfaceVertices at hv'
  rw [mem_items] at hv'
  by_cases hs : n.istar v = []
  · rw [if_pos hs, contains_absent] at hv'
    exact absurd hv'.2 (by simp)
  · rw [if_neg hs] at hv'
    have hz : ∀ k : Int, k ≠ -1 → ((n.istar v).countP fun e => decide ((compute n.mesh p).ipart e = k)) = 0 := by
      intro k hk
      rw [List.countP_eq_zero]
      intro e he
      have : (compute n.mesh p).ipart e = -1 := by
        rcases ipart_cases h.wf p (h.elems v e he) with h' | h' | h'
        · exact absurd (Or.inl h'.2) (hany e he)
        · exact absurd (Or.inr h'.2) (hany e he)
        · exact h'.1
      rw [this]
      simp only [decide_eq_true_eq]
      exact fun h => hk h.symm
    have : interfaceVertexPart (compute n.mesh p) (n.istar v) = -1 := by
      unfold interfaceVertexPart
      rw [hz 0 (by decide), hz 2 (by decide)]
      unfold classify
      rw [if_neg (by
        intro h0
        exact hs (List.length_eq_zero_iff.1 h0.symm))]
      simp
    rw [this, contains_absent] at hv'
    exact absurd hv'.2 (by simp)

example := C214_stays_partial tip_ok tipCall_means 1 (fun _ => 0)

end Verif.MoveParallel
