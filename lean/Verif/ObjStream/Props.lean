import Mathlib.Data.List.Basic
import Mathlib.Algebra.Order.Ring.Nat
import Verif.ObjStream.Model

/-!
# C38: an object stream is a queue
-/

namespace Verif.ObjStream

/-! ## Specification: bytes written since the last `clear`, and the read position -/

/-- The abstract stream. -/
structure Queue where
  written : List Nat
  pos : Nat

/-- One call on the abstract stream; `none` if more is read than was written. -/
def Queue.step (q : Queue) : Op → Option (Queue × List (List Nat))
  | .write _ v => some (⟨q.written ++ v, q.pos⟩, [])
  | .writeRaw v => some (⟨q.written ++ v, q.pos⟩, [])
  | .read _ n => if q.pos + n ≤ q.written.length then some (⟨q.written, q.pos + n⟩, [(q.written.drop q.pos).take n]) else none
  | .readRaw n => if q.pos + n ≤ q.written.length then some (⟨q.written, q.pos + n⟩, [(q.written.drop q.pos).take n]) else none
  | .reserve _ => some (q, [])
  | .clear => some (⟨[], 0⟩, [])
  | .rewind => some (⟨q.written, 0⟩, [])
  | .skip n => if q.pos + n ≤ q.written.length then some (⟨q.written, q.pos + n⟩, []) else none
  | .recv v => some (⟨v, 0⟩, [])

/-- Several calls. -/
def Queue.run : List Op → Queue → Option (Queue × List (List Nat))
  | [], q => some (q, [])
  | op :: ops, q =>
    match q.step op with
    | none => none
    | some (q1, out) =>
      match Queue.run ops q1 with
      | none => none
      | some (q2, out2) => some (q2, out ++ out2)

/-- All values have a size that is a multiple of `A`, and an alignment that divides `A`. -/
def Aligned (A : Nat) : Op → Prop
  | .write al v => al ∣ A ∧ A ∣ v.length
  | .read al n => al ∣ A ∧ A ∣ n
  | .writeRaw v => A ∣ v.length
  | .readRaw n => A ∣ n
  | .skip n => A ∣ n
  | .recv v => A ∣ v.length
  | _ => True

/-- The stream holds the queue. -/
structure Holds (A : Nat) (s : Stream) (q : Queue) : Prop where
  take : s.buf.take s.wb = q.written.map some
  wb : s.wb = q.written.length
  len : s.wb ≤ s.buf.length
  rb : s.rb = q.pos
  awb : A ∣ s.wb
  arb : A ∣ s.rb
  pos : q.pos ≤ q.written.length

theorem realloc_len (s : Stream) (n : Nat) : n ≤ (s.realloc n).buf.length ∧ s.buf.length ≤ (s.realloc n).buf.length ∧
    (s.realloc n).wb = s.wb ∧ (s.realloc n).rb = s.rb ∧ ∀ k ≤ s.buf.length, (s.realloc n).buf.take k = s.buf.take k := by
  unfold Stream.realloc
  refine ⟨?_, ?_, rfl, rfl, ?_⟩
  · simp only [List.length_append, List.length_replicate]
    split <;> omega
  · simp only [List.length_append, List.length_replicate]
    omega
  · intro k hk
    rw [List.take_append_of_le_length hk]

theorem grow_len (s : Stream) (n : Nat) : ∀ t, t = (if s.wb + n > s.buf.length then s.realloc (s.wb + n) else s) →
    s.wb + n ≤ t.buf.length ∧ s.buf.length ≤ t.buf.length ∧ t.wb = s.wb ∧ t.rb = s.rb ∧ ∀ k ≤ s.buf.length, t.buf.take k = s.buf.take k := by
  intro t ht
  split at ht
  · subst ht; exact realloc_len s _
  · subst ht
    refine ⟨by omega, le_refl _, rfl, rfl, fun _ _ => rfl⟩

theorem store_take {buf : List (Option Nat)} {ap : Nat} {v : List Nat} (h : ap + v.length ≤ buf.length) :
    (store buf ap v).take (ap + v.length) = buf.take ap ++ v.map some ∧ (store buf ap v).length = buf.length := by
  unfold store
  constructor
  · rw [List.take_append_of_le_length (by simp; omega), List.take_of_length_le (by simp)]
  · simp; omega

theorem holds_write {A : Nat} {s : Stream} {q : Queue} (h : Holds A s q) {v : List Nat} (hv : A ∣ v.length)
    {t : Stream} (ht : s.wb + v.length ≤ t.buf.length) (ht2 : t.rb = s.rb) (ht3 : t.buf.take s.wb = s.buf.take s.wb) :
    Holds A { t with buf := store t.buf s.wb v, wb := s.wb + v.length } ⟨q.written ++ v, q.pos⟩ := by
  obtain ⟨h1, h2⟩ := store_take ht
  constructor
  · simp only
    rw [h1, ht3, h.take, List.map_append]
  · simp [h.wb]
  · simp only
    rw [h2]; exact ht
  · exact ht2.trans h.rb
  · exact Nat.dvd_add h.awb hv
  · simp only [ht2]; exact h.arb
  · have := h.pos
    simp; omega

theorem read_eq {A : Nat} {s : Stream} {q : Queue} (h : Holds A s q) {n : Nat} (hn : q.pos + n ≤ q.written.length) :
    (s.buf.drop s.rb).take n = ((q.written.drop q.pos).take n).map some := by
  have h1 : (s.buf.drop s.rb).take n = ((s.buf.take s.wb).drop s.rb).take n := by
    rw [List.drop_take, List.take_take, h.rb, h.wb, Nat.min_eq_left (by omega)]
  rw [h1, h.take, h.rb, List.map_take, List.map_drop]

theorem holds_read {A : Nat} {s : Stream} {q : Queue} (h : Holds A s q) {n : Nat} (ha : A ∣ n) (hn : q.pos + n ≤ q.written.length) :
    Holds A { s with rb := s.rb + n } ⟨q.written, q.pos + n⟩ :=
  ⟨h.take, h.wb, h.len, by simp [h.rb], h.awb, Nat.dvd_add h.arb ha, hn⟩

theorem mod_of_dvd {al A n : Nat} (h : al ∣ A) (h2 : A ∣ n) : n % al = 0 := Nat.mod_eq_zero_of_dvd (Nat.dvd_trans h h2)

theorem readT_holds {A : Nat} {s : Stream} {q : Queue} (h : Holds A s q) (dbg : Bool) {al n : Nat} (hal : al ∣ A)
    (hn : q.pos + n ≤ q.written.length) :
    s.readT dbg al n = .ok ({ s with rb := s.rb + n }, ((q.written.drop q.pos).take n).map some) := by
  unfold Stream.readT
  have h1 : s.rb + n ≤ s.wb := by rw [h.rb, h.wb]; exact hn
  rw [if_neg (by simp [h1]), if_neg (by simp [mod_of_dvd hal h.arb]), if_neg (by have := h.len; omega), read_eq h hn]

theorem step_holds {A : Nat} {s : Stream} {q : Queue} (h : Holds A s q) (dbg : Bool) {op : Op} (ha : Aligned A op)
    {q' : Queue} {out : List (List Nat)} (hq : q.step op = some (q', out)) :
    ∃ s', step dbg s op = .ok (s', out.map (List.map some)) ∧ Holds A s' q' := by
  cases op with
  | write al v =>
    simp only [Queue.step, Option.some.injEq, Prod.mk.injEq] at hq
    obtain ⟨rfl, rfl⟩ := hq
    obtain ⟨h1, h2, h3, h4, h5⟩ := grow_len s v.length _ rfl
    refine ⟨_, ?_, holds_write h ha.2 h1 h4 (h5 _ h.len)⟩
    simp only [step, Stream.writeT, true_and]
    rw [if_neg (by simp [h1]), if_neg (by simp [mod_of_dvd ha.1 h.awb]), if_neg (by simp [h1])]
    rfl
  | read al n =>
    simp only [Queue.step] at hq
    split at hq
    · rename_i hn
      simp only [Option.some.injEq, Prod.mk.injEq] at hq
      obtain ⟨rfl, rfl⟩ := hq
      refine ⟨_, ?_, holds_read h ha.2 hn⟩
      simp only [step, readT_holds h dbg ha.1 hn, Res.bind]
      rfl
    · exact absurd hq (by simp)
  | writeRaw v =>
    simp only [Queue.step, Option.some.injEq, Prod.mk.injEq] at hq
    obtain ⟨rfl, rfl⟩ := hq
    refine ⟨_, rfl, ?_⟩
    unfold Stream.writeRaw
    split
    · rename_i h0
      have : v = [] := List.length_eq_zero_iff.1 h0
      subst this
      simpa using h
    · obtain ⟨h1, h2, h3, h4, h5⟩ := grow_len s v.length _ rfl
      exact holds_write h ha h1 h4 (h5 _ h.len)
  | readRaw n =>
    simp only [Queue.step] at hq
    split at hq
    · rename_i hn
      simp only [Option.some.injEq, Prod.mk.injEq] at hq
      obtain ⟨rfl, rfl⟩ := hq
      by_cases h0 : n = 0
      · subst h0
        refine ⟨s, ?_, by simpa using h⟩
        simp [step, Stream.readRaw, Res.bind]
      · refine ⟨_, ?_, holds_read h ha hn⟩
        simp only [step, Stream.readRaw, if_neg h0, readT_holds h dbg (Nat.one_dvd _) hn, Res.bind]
        rfl
    · exact absurd hq (by simp)
  | reserve n =>
    simp only [Queue.step, Option.some.injEq, Prod.mk.injEq] at hq
    obtain ⟨rfl, rfl⟩ := hq
    refine ⟨_, rfl, ?_⟩
    obtain ⟨h1, h2, h3, h4, h5⟩ := grow_len s n _ rfl
    unfold Stream.reserve
    constructor
    · rw [h3, h5 _ h.len, h.take]
    · rw [h3, h.wb]
    · rw [h3]; omega
    · rw [h4, h.rb]
    · rw [h3]; exact h.awb
    · rw [h4]; exact h.arb
    · exact h.pos
  | clear =>
    simp only [Queue.step, Option.some.injEq, Prod.mk.injEq] at hq
    obtain ⟨rfl, rfl⟩ := hq
    exact ⟨_, rfl, ⟨by simp [Stream.clear], rfl, Nat.zero_le _, rfl, Nat.dvd_zero _, Nat.dvd_zero _, Nat.zero_le _⟩⟩
  | rewind =>
    simp only [Queue.step, Option.some.injEq, Prod.mk.injEq] at hq
    obtain ⟨rfl, rfl⟩ := hq
    exact ⟨_, rfl, ⟨h.take, h.wb, h.len, rfl, h.awb, Nat.dvd_zero _, Nat.zero_le _⟩⟩
  | skip n =>
    simp only [Queue.step] at hq
    split at hq
    · rename_i hn
      simp only [Option.some.injEq, Prod.mk.injEq] at hq
      obtain ⟨rfl, rfl⟩ := hq
      refine ⟨_, ?_, holds_read h ha hn⟩
      have h1 : s.rb + n ≤ s.wb := by rw [h.rb, h.wb]; exact hn
      simp only [step, Stream.skip]
      rw [if_neg (by simp [h1])]
      rfl
    · exact absurd hq (by simp)
  | recv v =>
    simp only [Queue.step, Option.some.injEq, Prod.mk.injEq] at hq
    obtain ⟨rfl, rfl⟩ := hq
    obtain ⟨h1, h2, h3, h4, h5⟩ := grow_len s v.length _ rfl
    have hlen : v.length ≤ ((s.reserve v.length).clear).buf.length := by
      simp only [Stream.reserve, Stream.clear]; omega
    have hz : 0 + v.length ≤ ((s.reserve v.length).clear).buf.length := by omega
    obtain ⟨g1, g2⟩ := store_take hz
    refine ⟨{ (s.reserve v.length).clear with buf := store (s.reserve v.length).clear.buf 0 v, wb := v.length }, ?_, ?_⟩
    · simp only [step, Stream.recv]
      rw [if_neg (by simp [hlen])]
      rfl
    · constructor
      · simpa using g1
      · rfl
      · simp only; rw [g2]; exact hlen
      · rfl
      · exact ha
      · exact Nat.dvd_zero _
      · exact Nat.zero_le _

theorem run_holds {A : Nat} (dbg : Bool) (ops : List Op) : ∀ {s : Stream} {q : Queue}, Holds A s q → (∀ op ∈ ops, Aligned A op) →
    ∀ {q' : Queue} {out : List (List Nat)}, q.run ops = some (q', out) →
    ∃ s', run dbg ops s = .ok (s', out.map (List.map some)) ∧ Holds A s' q' := by
  induction ops with
  | nil =>
    intro s q h _ q' out hq
    simp only [Queue.run, Option.some.injEq, Prod.mk.injEq] at hq
    obtain ⟨rfl, rfl⟩ := hq
    exact ⟨s, rfl, h⟩
  | cons op ops ih =>
    intro s q h ha q' out hq
    simp only [Queue.run] at hq
    split at hq
    · exact absurd hq (by simp)
    · rename_i q1 out1 h1
      split at hq
      · exact absurd hq (by simp)
      · rename_i q2 out2 h2
        simp only [Option.some.injEq, Prod.mk.injEq] at hq
        obtain ⟨rfl, rfl⟩ := hq
        obtain ⟨s1, e1, g1⟩ := step_holds h dbg (ha op (by simp)) h1
        obtain ⟨s2, e2, g2⟩ := ih g1 (fun o ho => ha o (by simp [ho])) h2
        refine ⟨s2, ?_, g2⟩
        simp only [run, e1, e2, Res.bind, List.map_append]

theorem holds_new (A chunk : Nat) : Holds A (Stream.new chunk) ⟨[], 0⟩ :=
  ⟨rfl, rfl, Nat.le_refl _, rfl, Nat.dvd_zero _, Nat.dvd_zero _, Nat.le_refl _⟩

/-- C38 for all sequences of calls, all sizes and any chunk size, with and without assertions: as long as no more is read
than was written, and the values keep each other aligned, all calls succeed and all reads return what the abstract queue
returns. Reading beyond the end and values of different alignment are the subject of C116. -/
theorem C38_queue (A : Nat) (dbg : Bool) (chunk : Nat) (ops : List Op) (ha : ∀ op ∈ ops, Aligned A op) {q : Queue}
    {out : List (List Nat)} (hq : Queue.run ops ⟨[], 0⟩ = some (q, out)) :
    ∃ s, run dbg ops (Stream.new chunk) = .ok (s, out.map (List.map some)) ∧ (s.eof = true ↔ q.pos = q.written.length) := by
  obtain ⟨s, e, h⟩ := run_holds dbg ops (holds_new A chunk) ha hq
  refine ⟨s, e, ?_⟩
  simp only [Stream.eof, decide_eq_true_eq, h.rb, h.wb]
  have := h.pos
  omega

theorem queue_reads (vs : List (List Nat)) : ∀ (pre : List Nat),
    Queue.run (vs.map fun v => Op.read 1 v.length) ⟨pre ++ vs.flatten, pre.length⟩ =
      some (⟨pre ++ vs.flatten, (pre ++ vs.flatten).length⟩, vs) := by
  induction vs with
  | nil => intro pre; simp [Queue.run]
  | cons v vs ih =>
    intro pre
    have := ih (pre ++ v)
    simp only [List.map_cons, Queue.run, Queue.step, List.flatten_cons]
    rw [if_pos (by simp)]
    simp only [List.drop_append_of_le_length (Nat.le_refl _), List.drop_length, List.nil_append]
    rw [List.append_assoc, List.length_append] at this
    rw [this]
    simp

theorem queue_writes (vs : List (List Nat)) : ∀ (pre : List Nat) (rest : List Op),
    Queue.run ((vs.map fun v => Op.write 1 v) ++ rest) ⟨pre, 0⟩ = Queue.run rest ⟨pre ++ vs.flatten, 0⟩ := by
  induction vs with
  | nil => intro pre rest; simp
  | cons v vs ih =>
    intro pre rest
    simp only [List.map_cons, List.cons_append, Queue.run, Queue.step]
    rw [ih]
    simp only [List.flatten_cons, List.append_assoc, List.nil_append]
    cases Queue.run rest ⟨pre ++ (v ++ vs.flatten), 0⟩ with
    | none => rfl
    | some p => rfl

/-- C38, plain: any values written are read back in the same order. -/
theorem C38_round_trip (dbg : Bool) (chunk : Nat) (vs : List (List Nat)) :
    ∃ s, run dbg ((vs.map fun v => Op.write 1 v) ++ vs.map fun v => Op.read 1 v.length) (Stream.new chunk) =
      .ok (s, vs.map (List.map some)) ∧ s.eof = true := by
  have h := queue_reads vs []
  have hq := queue_writes vs [] (vs.map fun v => Op.read 1 v.length)
  simp only [List.nil_append, List.length_nil] at h hq
  rw [h] at hq
  obtain ⟨s, e, he⟩ := C38_queue 1 dbg chunk _ (by
    intro op hop
    simp only [List.mem_append, List.mem_map] at hop
    rcases hop with ⟨v, _, rfl⟩ | ⟨v, _, rfl⟩ <;> exact ⟨Nat.dvd_refl _, Nat.one_dvd _⟩) hq
  exact ⟨s, e, he.2 rfl⟩

/-- Two doubles and an integer of eight bytes, with a small chunk size. -/
example : ∃ s, run true [.write 8 [1, 2, 3, 4, 5, 6, 7, 8], .write 8 [9, 9, 9, 9, 9, 9, 9, 9], .read 8 8, .clear,
    .write 8 [0, 0, 0, 0, 0, 0, 0, 1], .read 8 8] (Stream.new 3) =
    .ok (s, [[some 1, some 2, some 3, some 4, some 5, some 6, some 7, some 8],
             [some 0, some 0, some 0, some 0, some 0, some 0, some 0, some 1]]) := ⟨_, rfl⟩

theorem step_failed {A : Nat} {s : Stream} {q : Queue} (h : Holds A s q) {op : Op} (hq : q.step op = none) :
    step true s op = .failed := by
  cases op with
  | read al n =>
    simp only [Queue.step, ite_eq_right_iff, reduceCtorEq, imp_false, not_le] at hq
    simp only [step, Stream.readT]
    rw [if_pos (by simp only [true_and, not_le]; rw [h.rb, h.wb]; exact hq)]
    rfl
  | readRaw n =>
    simp only [Queue.step, ite_eq_right_iff, reduceCtorEq, imp_false, not_le] at hq
    have := h.pos
    simp only [step, Stream.readRaw, Stream.readT]
    rw [if_neg (by omega), if_pos (by simp only [true_and, not_le]; rw [h.rb, h.wb]; exact hq)]
    rfl
  | skip n =>
    simp only [Queue.step, ite_eq_right_iff, reduceCtorEq, imp_false, not_le] at hq
    simp only [step, Stream.skip]
    rw [if_pos (by simp only [true_and, not_le]; rw [h.rb, h.wb]; exact hq)]
    rfl
  | _ => simp [Queue.step] at hq

theorem run_failed {A : Nat} (ops : List Op) : ∀ {s : Stream} {q : Queue}, Holds A s q → (∀ op ∈ ops, Aligned A op) →
    q.run ops = none → run true ops s = .failed := by
  induction ops with
  | nil => intro s q _ _ hq; simp [Queue.run] at hq
  | cons op ops ih =>
    intro s q h ha hq
    simp only [Queue.run] at hq
    split at hq
    · rename_i h1
      simp only [run, step_failed h h1, Res.bind]
    · rename_i q1 out1 h1
      obtain ⟨s1, e1, g1⟩ := step_holds h true (ha op (by simp)) h1
      split at hq
      · rename_i h2
        simp only [run, e1, Res.bind, ih g1 (fun o ho => ha o (by simp [ho])) h2]
      · exact absurd hq (by simp)

/-- With assertions, reading beyond the end ends the program: for all sequences of calls in which more is read than was
written. -/
theorem C38_end_debug (A chunk : Nat) (ops : List Op) (ha : ∀ op ∈ ops, Aligned A op) (hq : Queue.run ops ⟨[], 0⟩ = none) :
    run true ops (Stream.new chunk) = .failed :=
  run_failed ops (holds_new A chunk) ha hq

example : run true [.write 8 [1, 2, 3, 4, 5, 6, 7, 8], .read 8 8, .read 8 8] (Stream.new 100) = .failed := by decide

/-- Without assertions reading beyond the end is not reported: two bytes are read though one was written. `EOFException` is
never thrown. -/
theorem C116_end_false : ¬ ∀ ops, Queue.run ops ⟨[], 0⟩ = none → (run false ops (Stream.new 0) = .failed) := by
  intro h
  exact absurd (h [.reserve 8, .write 1 [7], .read 1 2] (by decide)) (by decide)

/-- A byte and then a double: the double is stored at an address that is not a multiple of its alignment. -/
theorem C116_alignment_false : ¬ ∀ ops q out, Queue.run ops ⟨[], 0⟩ = some (q, out) → ∃ s, run true ops (Stream.new 0) = .ok (s, out.map (List.map some)) := by
  intro h
  obtain ⟨s, hs⟩ := h [.write 1 [7], .write 8 [1, 2, 3, 4, 5, 6, 7, 8]] _ _ rfl
  have h2 : run true [.write 1 [7], .write 8 [1, 2, 3, 4, 5, 6, 7, 8]] (Stream.new 0) = .undefined := by decide
  rw [h2] at hs
  exact absurd hs (by simp)

/-- `writeUnchecked` after a sufficient `reserve` does the same as `write`. -/
theorem C38_unchecked {A : Nat} {s : Stream} {q : Queue} (h : Holds A s q) (dbg : Bool) {al : Nat} {v : List Nat} (hal : al ∣ A)
    (hv : A ∣ v.length) {n : Nat} (hn : v.length ≤ n) :
    ∃ s', (s.reserve n).writeT dbg false al v = .ok s' ∧ Holds A s' ⟨q.written ++ v, q.pos⟩ := by
  obtain ⟨h1, h2, h3, h4, h5⟩ := grow_len s n _ rfl
  have hr : s.reserve n = (if s.wb + n > s.buf.length then s.realloc (s.wb + n) else s) := rfl
  rw [← hr] at h1 h2 h3 h4 h5
  have h6 : s.wb + v.length ≤ (s.reserve n).buf.length := by omega
  refine ⟨_, ?_, holds_write (t := s.reserve n) h hv h6 h4 (h5 _ h.len)⟩
  simp only [Stream.writeT, Bool.false_eq_true, false_and, if_false, h3]
  rw [if_neg (by simp [h6]), if_neg (by simp [mod_of_dvd hal h.awb]), if_neg (by simp [h6])]

/-- `readStream` copies everything if nothing has been read before. -/
theorem C116_readStream_partial {A : Nat} {s : Stream} {q : Queue} (h : Holds A s q) (dbg : Bool) (h0 : q.pos = 0) :
    ∃ t, s.readStream dbg = .ok (t, q.written.map some) := by
  unfold Stream.readStream
  by_cases hw : s.wb = 0
  · rw [if_pos hw]
    have : q.written = [] := List.length_eq_zero_iff.1 (by rw [← h.wb, hw])
    exact ⟨s, by rw [this]; rfl⟩
  · have hrb : s.rb = 0 := by rw [h.rb, h0]
    rw [if_neg hw, if_neg (by have := h.len; omega)]
    unfold Stream.skip
    rw [if_neg (by simp [hrb])]
    refine ⟨{ s with rb := s.rb + s.wb }, ?_⟩
    simp only [Res.bind, hrb, List.drop_zero, h.take]

/-- After a read, `readStream` takes too many bytes: here it reads beyond the buffer. -/
theorem C116_readStream_false : (run true [.write 1 [1], .write 1 [2], .read 1 1] (Stream.new 0)) =
      .ok (⟨[some 1, some 2], 1, 2, 0⟩, [[some 1]]) ∧
    (⟨[some 1, some 2], 1, 2, 0⟩ : Stream).readStream true = .undefined := by decide

end Verif.ObjStream
