import Mathlib.Data.List.Basic
import Mathlib.Data.List.Range
import Mathlib.Logic.Relation
import Mathlib.Order.Nat
import Mathlib.Data.Nat.Find
import Verif.Parallel.Model

/-!
# Exchange of messages in any schedule

Every process calls `communicate` a number of times. All calls use the tag 0, since a new `MMeshCommunication` is created
in each call (mmesh.hh:1714, communication.hh:36). MPI keeps the order of messages between two processes with the same tag;
this is assumed.
-/

namespace Verif.Parallel.Network

/-- Change of one value. -/
def upd {α : Type} (f : Nat → α) (a : Nat) (b : α) : Nat → α := fun x => if x = a then b else f x

/-- State of all processes: number of calls that have returned, links to which the message of the current call has been
posted, links from which it has been received, messages under way, and all messages received so far. -/
structure State (Msg : Type) where
  round : Nat → Nat
  posted : Nat → List Nat
  got : Nat → List Nat
  chan : Nat → Nat → List Msg
  log : Nat → Nat → List Msg

/-- At the beginning. -/
def init (Msg : Type) : State Msg := ⟨fun _ => 0, fun _ => [], fun _ => [], fun _ _ => [], fun _ _ => []⟩

/-- Steps of `operator()` (communication.hh:39-159), for processes with the given links, `R` calls each, and `msg p q k` the
message from `p` to `q` in call `k`. `post`: `MPI_Isend` (88-95). `recv`: `MPI_Iprobe` finds the first message of the link,
and `MPI_Irecv` takes it (97-123). `finish`: everything has been received, and the loop and `MPI_Waitall` end (123-124). The
latter may have to wait until the messages have been taken; see `progress`. -/
inductive Step {Msg : Type} (links : Nat → List Nat) (R : Nat) (msg : Nat → Nat → Nat → Msg) : State Msg → State Msg → Prop
  | post {s : State Msg} {p q : Nat} : s.round p < R → q ∈ links p → q ∉ s.posted p →
      Step links R msg s { s with posted := upd s.posted p (q :: s.posted p)
                                  chan := upd s.chan p (upd (s.chan p) q (s.chan p q ++ [msg p q (s.round p)])) }
  | recv {s : State Msg} {p q : Nat} {x : Msg} {rest : List Msg} : s.round q < R → (∀ l ∈ links q, l ∈ s.posted q) →
      p ∈ links q → p ∉ s.got q → s.chan p q = x :: rest →
      Step links R msg s { s with got := upd s.got q (p :: s.got q)
                                  chan := upd s.chan p (upd (s.chan p) q rest)
                                  log := upd s.log q (upd (s.log q) p (s.log q p ++ [x])) }
  | finish {s : State Msg} {p : Nat} : s.round p < R → (∀ l ∈ links p, l ∈ s.posted p) → (∀ l ∈ links p, l ∈ s.got p) →
      Step links R msg s { s with round := upd s.round p (s.round p + 1)
                                  posted := upd s.posted p []
                                  got := upd s.got p [] }

/-- States that can be reached by any schedule. -/
def Reachable {Msg : Type} (links : Nat → List Nat) (R : Nat) (msg : Nat → Nat → Nat → Msg) : State Msg → Prop :=
  Relation.ReflTransGen (Step links R msg) (init Msg)

/-- Messages posted by `p` for `q`, and taken by `q` from `p`. -/
def nPosted {Msg : Type} (s : State Msg) (p q : Nat) : Nat := s.round p + if q ∈ s.posted p then 1 else 0
def nGot {Msg : Type} (s : State Msg) (p q : Nat) : Nat := s.round q + if p ∈ s.got q then 1 else 0

/-- What holds for all linked processes. -/
structure Inv {Msg : Type} (links : Nat → List Nat) (R : Nat) (msg : Nat → Nat → Nat → Msg) (s : State Msg) : Prop where
  le : ∀ p q, q ∈ links p → nGot s p q ≤ nPosted s p q
  chan : ∀ p q, q ∈ links p → s.chan p q = (List.range' (nGot s p q) (nPosted s p q - nGot s p q)).map (msg p q)
  log : ∀ p q, q ∈ links p → s.log q p = (List.range (nGot s p q)).map (msg p q)
  round : ∀ p, s.round p ≤ R
  active : ∀ p, s.round p = R → s.posted p = [] ∧ s.got p = []
  order : ∀ p, s.got p ≠ [] → ∀ l ∈ links p, l ∈ s.posted p

theorem upd_eq {α : Type} {f : Nat → α} {a : Nat} {b : α} : upd f a b a = b := by simp [upd]
theorem upd_ne {α : Type} {f : Nat → α} {a x : Nat} {b : α} (h : x ≠ a) : upd f a b x = f x := by simp [upd, h]

theorem inv_init {Msg : Type} (links : Nat → List Nat) (R : Nat) (msg : Nat → Nat → Nat → Msg) :
    Inv links R msg (init Msg) := by
  constructor <;> simp [init, nGot, nPosted]

theorem inv_step {Msg : Type} {links : Nat → List Nat} {R : Nat} {msg : Nat → Nat → Nat → Msg} {s t : State Msg}
    (hsym : ∀ p q, q ∈ links p → p ∈ links q) (h : Inv links R msg s) (hst : Step links R msg s t) : Inv links R msg t := by
  cases hst with
  | @post p q hR hq hnp =>
    have hG : ∀ a b, nGot { s with posted := upd s.posted p (q :: s.posted p), chan := upd s.chan p (upd (s.chan p) q (s.chan p q ++ [msg p q (s.round p)])) } a b = nGot s a b := fun a b => rfl
    have hP : ∀ a b, ¬ (a = p ∧ b = q) → nPosted { s with posted := upd s.posted p (q :: s.posted p), chan := upd s.chan p (upd (s.chan p) q (s.chan p q ++ [msg p q (s.round p)])) } a b = nPosted s a b := by
      intro a b hab
      simp only [nPosted]
      by_cases ha : a = p
      · subst ha
        have hb : b ≠ q := fun h => hab ⟨rfl, h⟩
        simp [upd_eq, hb]
      · simp only [upd_ne ha]
    have hPpq : nPosted { s with posted := upd s.posted p (q :: s.posted p), chan := upd s.chan p (upd (s.chan p) q (s.chan p q ++ [msg p q (s.round p)])) } p q = nPosted s p q + 1 := by
      simp [nPosted, upd_eq, hnp]
    have hold : nPosted s p q = s.round p := by simp [nPosted, hnp]
    constructor
    · intro a b hab
      rw [hG]
      by_cases hc : a = p ∧ b = q
      · rw [hc.1, hc.2, hPpq]
        have := h.le p q hq
        omega
      · rw [hP a b hc]
        exact h.le a b hab
    · intro a b hab
      rw [hG]
      by_cases hc : a = p ∧ b = q
      · obtain ⟨rfl, rfl⟩ := hc
        have hle := h.le a b hq
        rw [hPpq, show nPosted s a b + 1 - nGot s a b = (nPosted s a b - nGot s a b) + 1 by omega, List.range'_concat,
          List.map_append, ← h.chan a b hq]
        simp only [upd_eq, List.map_cons, List.map_nil, Nat.one_mul]
        rw [show nGot s a b + (nPosted s a b - nGot s a b) = s.round a by omega]
      · rw [hP a b hc]
        have : upd s.chan p (upd (s.chan p) q (s.chan p q ++ [msg p q (s.round p)])) a b = s.chan a b := by
          by_cases ha : a = p
          · subst ha
            rw [upd_eq, upd_ne (fun h => hc ⟨rfl, h⟩)]
          · rw [upd_ne ha]
        rw [← h.chan a b hab]
        exact this
    · intro a b hab
      rw [hG]
      exact h.log a b hab
    · exact h.round
    · intro a ha
      have : a ≠ p := by rintro rfl; exact absurd ha (Nat.ne_of_lt hR)
      simp only [upd_ne this]
      exact h.active a ha
    · intro a ha l hl
      by_cases hap : a = p
      · subst hap
        simp only [upd_eq, List.mem_cons]
        exact Or.inr (h.order a ha l hl)
      · simp only [upd_ne hap]
        exact h.order a ha l hl
  | @recv p q x rest hR hall hp hng hchan =>
    have hqp : q ∈ links p := hsym q p hp
    generalize ht : ({ s with got := upd s.got q (p :: s.got q), chan := upd s.chan p (upd (s.chan p) q rest), log := upd s.log q (upd (s.log q) p (s.log q p ++ [x])) } : State Msg) = t
    have hP : ∀ a b, nPosted t a b = nPosted s a b := fun a b => by rw [← ht]; rfl
    have hG : ∀ a b, ¬ (a = p ∧ b = q) → nGot t a b = nGot s a b := by
      intro a b hab
      rw [← ht]
      simp only [nGot]
      by_cases hb : b = q
      · subst hb
        have ha : a ≠ p := fun h => hab ⟨h, rfl⟩
        simp [upd_eq, ha]
      · simp only [upd_ne hb]
    have hGpq : nGot t p q = nGot s p q + 1 := by
      rw [← ht]
      simp [nGot, upd_eq, hng]
    have hc0 := h.chan p q hqp
    have hlt : nGot s p q < nPosted s p q := by
      rcases Nat.lt_or_ge (nGot s p q) (nPosted s p q) with h1 | h1
      · exact h1
      · rw [show nPosted s p q - nGot s p q = 0 by omega, hchan] at hc0
        simp at hc0
    have hcs : x = msg p q (nGot s p q) ∧ rest = (List.range' (nGot s p q + 1) (nPosted s p q - (nGot s p q + 1))).map (msg p q) := by
      rw [show nPosted s p q - nGot s p q = (nPosted s p q - (nGot s p q + 1)) + 1 by omega, List.range'_succ, List.map_cons, hchan] at hc0
      exact List.cons.inj hc0
    constructor
    · intro a b hab
      rw [hP]
      by_cases hc : a = p ∧ b = q
      · rw [hc.1, hc.2, hGpq]; omega
      · rw [hG a b hc]; exact h.le a b hab
    · intro a b hab
      rw [hP]
      by_cases hc : a = p ∧ b = q
      · obtain ⟨rfl, rfl⟩ := hc
        rw [hGpq, ← hcs.2, ← ht]
        simp [upd_eq]
      · rw [hG a b hc, ← h.chan a b hab, ← ht]
        by_cases ha : a = p
        · subst ha
          simp only [upd_eq]
          rw [upd_ne (fun h => hc ⟨rfl, h⟩)]
        · simp only [upd_ne ha]
    · intro a b hab
      by_cases hc : a = p ∧ b = q
      · obtain ⟨rfl, rfl⟩ := hc
        rw [hGpq, List.range_succ, List.map_append, ← h.log a b hab, ← ht]
        simp [upd_eq, hcs.1]
      · rw [hG a b hc, ← h.log a b hab, ← ht]
        by_cases hb : b = q
        · subst hb
          simp only [upd_eq]
          rw [upd_ne (fun h => hc ⟨h, rfl⟩)]
        · simp only [upd_ne hb]
    · rw [← ht]; exact h.round
    · intro a ha
      rw [← ht] at ha ⊢
      have : a ≠ q := by rintro rfl; exact absurd ha (Nat.ne_of_lt hR)
      simp only [upd_ne this]
      exact h.active a ha
    · intro a ha l hl
      rw [← ht] at ha ⊢
      by_cases haq : a = q
      · subst haq
        exact hall l hl
      · simp only [upd_ne haq] at ha
        exact h.order a ha l hl
  | @finish p hR hpost hgot =>
    have hP : ∀ a b, b ∈ links a → nPosted { s with round := upd s.round p (s.round p + 1), posted := upd s.posted p [], got := upd s.got p [] } a b = nPosted s a b := by
      intro a b hab
      simp only [nPosted]
      by_cases ha : a = p
      · subst ha
        simp [upd_eq, hpost b hab]
      · simp only [upd_ne ha]
    have hG : ∀ a b, b ∈ links a → nGot { s with round := upd s.round p (s.round p + 1), posted := upd s.posted p [], got := upd s.got p [] } a b = nGot s a b := by
      intro a b hab
      simp only [nGot]
      by_cases hb : b = p
      · subst hb
        simp [upd_eq, hgot a (hsym a b hab)]
      · simp only [upd_ne hb]
    constructor
    · intro a b hab
      rw [hP a b hab, hG a b hab]
      exact h.le a b hab
    · intro a b hab
      rw [hP a b hab, hG a b hab]
      exact h.chan a b hab
    · intro a b hab
      rw [hG a b hab]
      exact h.log a b hab
    · intro a
      by_cases ha : a = p
      · subst ha; simp only [upd_eq]; omega
      · simp only [upd_ne ha]; exact h.round a
    · intro a haR
      by_cases ha : a = p
      · subst ha; simp only [upd_eq]; exact ⟨trivial, trivial⟩
      · simp only [upd_ne ha] at haR ⊢; exact h.active a haR
    · intro a hg l hl
      by_cases ha : a = p
      · subst ha; simp [upd_eq] at hg
      · simp only [upd_ne ha] at hg ⊢; exact h.order a hg l hl

theorem inv_reachable {Msg : Type} {links : Nat → List Nat} {R : Nat} {msg : Nat → Nat → Nat → Msg} {s : State Msg}
    (hsym : ∀ p q, q ∈ links p → p ∈ links q) (h : Reachable links R msg s) : Inv links R msg s := by
  induction h with
  | refl => exact inv_init links R msg
  | tail _ hst ih => exact inv_step hsym ih hst

/-- C36, all schedules: whatever the order in which the processes run, what a process has received from a link are the
messages of the first calls, in order; so in its call `k` it reads what the other process has sent in its call `k`. -/
theorem C36_schedule {Msg : Type} {links : Nat → List Nat} {R : Nat} {msg : Nat → Nat → Nat → Msg} {s : State Msg}
    (hsym : ∀ p q, q ∈ links p → p ∈ links q) (h : Reachable links R msg s) {p q : Nat} (hq : q ∈ links p) :
    s.log q p = (List.range (s.log q p).length).map (msg p q) ∧
      (s.log q p).length = s.round q + (if p ∈ s.got q then 1 else 0) := by
  have hi := inv_reachable hsym h
  have hl := hi.log p q hq
  refine ⟨?_, ?_⟩
  · rw [hl]; simp
  · rw [hl]; simp [nGot]

/-- C36, no deadlock: as long as a process has not made all its calls, some process can go on. This holds even if
`MPI_Waitall` waits until all messages of the process have been taken. -/
theorem C36_progress {Msg : Type} {links : Nat → List Nat} {R : Nat} {msg : Nat → Nat → Nat → Msg} {s : State Msg}
    (hsym : ∀ p q, q ∈ links p → p ∈ links q) (h : Reachable links R msg s) (hlt : ∃ p, s.round p < R) :
    ∃ t, Step links R msg s t ∧ ((∃ p, t.round p ≠ s.round p ∧ ∀ q ∈ links p, s.chan p q = []) ∨ t.round = s.round) := by
  classical
  have hi := inv_reachable hsym h
  -- a process with the smallest number of calls
  obtain ⟨p, hp, hmin⟩ : ∃ p, s.round p < R ∧ ∀ q, s.round p ≤ s.round q := by
    have hex : ∃ n, ∃ p, s.round p = n := ⟨_, 0, rfl⟩
    obtain ⟨p, hp⟩ := Nat.find_spec hex
    have hmin : ∀ q, s.round p ≤ s.round q := by
      intro q
      rw [hp]
      exact Nat.find_min' hex ⟨q, rfl⟩
    obtain ⟨p', hp'⟩ := hlt
    exact ⟨p, lt_of_le_of_lt (hmin p') hp', hmin⟩
  -- a process with this number of calls that has a message to post can do so
  by_cases h1 : ∃ a, s.round a = s.round p ∧ ∃ b ∈ links a, b ∉ s.posted a
  · obtain ⟨a, ha, b, hb, hnb⟩ := h1
    exact ⟨_, Step.post (by rw [ha]; exact hp) hb hnb, Or.inr rfl⟩
  · have hpost : ∀ a, s.round a = s.round p → ∀ b ∈ links a, b ∈ s.posted a := by
      intro a ha b hb
      by_contra hn
      exact h1 ⟨a, ha, b, hb, hn⟩
    -- a process with this number of calls that waits for a message can take it
    by_cases h2 : ∃ a, s.round a = s.round p ∧ ∃ b ∈ links a, b ∉ s.got a
    · obtain ⟨a, ha, b, hb, hnb⟩ := h2
      have hab : a ∈ links b := hsym a b hb
      have hg : nGot s b a = s.round p := by simp [nGot, hnb, ha]
      have hpos : s.round p < nPosted s b a := by
        rcases Nat.eq_or_lt_of_le (hmin b) with h3 | h3
        · have := hpost b h3.symm a hab
          simp only [nPosted, this, if_true]
          omega
        · simp only [nPosted]; omega
      have hc := hi.chan b a hab
      rw [show nPosted s b a - nGot s b a = (nPosted s b a - nGot s b a - 1) + 1 by omega, List.range'_succ, List.map_cons] at hc
      exact ⟨_, Step.recv (by rw [ha]; exact hp) (hpost a ha) hb hnb hc, Or.inr rfl⟩
    · have hgot : ∀ a, s.round a = s.round p → ∀ b ∈ links a, b ∈ s.got a := by
        intro a ha b hb
        by_contra hn
        exact h2 ⟨a, ha, b, hb, hn⟩
      refine ⟨_, Step.finish hp (hpost p rfl) (hgot p rfl), Or.inl ⟨p, by simp [upd_eq], ?_⟩⟩
      intro q hq
      have hc := hi.chan p q hq
      have hP : nPosted s p q = s.round p + 1 := by simp [nPosted, hpost p rfl q hq]
      have hG : s.round p + 1 ≤ nGot s p q := by
        rcases Nat.eq_or_lt_of_le (hmin q) with h3 | h3
        · have := hgot q h3.symm p (hsym p q hq)
          simp only [nGot, this, if_true]
          omega
        · simp only [nGot]; omega
      rw [hc, show nPosted s p q - nGot s p q = 0 by omega]
      rfl

/-- Links of two processes. -/
def twoLinks (p : Nat) : List Nat := if p = 0 then [1] else if p = 1 then [0] else []

/-- Two processes: process 0 may have returned from its first call when process 1 has not yet received anything. -/
example : ∃ s : State Nat, Reachable twoLinks 2 (fun p q k => 100 * p + 10 * q + k) s ∧
    s.round 0 = 1 ∧ s.round 1 = 0 ∧ s.log 0 1 = [100] := by
  have h0 : Reachable twoLinks 2 (fun p q k => 100 * p + 10 * q + k) (init Nat) := .refl
  have h1 := h0.tail (.post (p := 0) (q := 1) (by decide) (by decide) (by decide))
  have h2 := h1.tail (.post (p := 1) (q := 0) (by decide) (by decide) (by decide))
  have h3 := h2.tail (.recv (p := 1) (q := 0) (x := 100) (rest := []) (by decide) (by decide) (by decide) (by decide) (by decide))
  have h4 := h3.tail (.finish (p := 0) (by decide) (by decide) (by decide))
  exact ⟨_, h4, by decide, by decide, by decide⟩

end Verif.Parallel.Network
