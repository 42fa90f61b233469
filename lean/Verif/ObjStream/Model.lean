import Mathlib.Data.List.Basic

/-!
# Object streams (misc/objectstream.hh)
-/

namespace Verif.ObjStream

/-- Outcome of a call: a result, a failed assertion (`assert`, only if `NDEBUG` is not defined), or undefined
behaviour. (Models: misc/objectstream.hh:146-171.) -/
inductive Res (α : Type)
  | ok (a : α)
  | failed
  | undefined
  deriving DecidableEq

/-- Sequencing. (Models: no code of its own.) -/
def Res.bind {α β : Type} : Res α → (α → Res β) → Res β
  | .ok a, f => f a
  | .failed, _ => .failed
  | .undefined, _ => .undefined

/-! ## One stream -/

/-- A stream that owns its buffer (objectstream.hh:38-43). The buffer has `_len` bytes; `none` is a byte that has not been
written yet. -/
structure Stream where
  buf : List (Option Nat)
  rb : Nat
  wb : Nat
  chunk : Nat
  deriving DecidableEq

/-- Constructor (misc/objectstream.hh:53-54). -/
def Stream.new (chunk : Nat) : Stream := ⟨[], 0, 0, chunk⟩

/-- `reallocateBuffer` (misc/objectstream.hh:246-255); memory does not run out, numbers do not overflow. -/
def Stream.realloc (s : Stream) (newSize : Nat) : Stream :=
  let len := if s.buf.length + s.chunk < newSize then newSize else s.buf.length + s.chunk
  { s with buf := s.buf ++ List.replicate (len - s.buf.length) none }

/-- Bytes stored at a position. (Models: misc/objectstream.hh:158.) -/
def store (buf : List (Option Nat)) (ap : Nat) (v : List Nat) : List (Option Nat) :=
  buf.take ap ++ v.map some ++ buf.drop (ap + v.length)

/-- `writeT` (misc/objectstream.hh:146-160) of a value with bytes `v` and alignment `al`. The store is through a pointer to the type of the value
(misc/objectstream.hh:30), so the position must be a multiple of the alignment (buffers start at addresses that are). `dbg`: assertions are on. -/
def Stream.writeT (dbg check : Bool) (s : Stream) (al : Nat) (v : List Nat) : Res Stream :=
  let s1 := if check ∧ s.wb + v.length > s.buf.length then s.realloc (s.wb + v.length) else s
  if dbg ∧ ¬ s.wb + v.length ≤ s1.buf.length then .failed
  else if s.wb % al ≠ 0 then .undefined
  else if ¬ s.wb + v.length ≤ s1.buf.length then .undefined
  else .ok { s1 with buf := store s1.buf s.wb v, wb := s.wb + v.length }

/-- `readT` (misc/objectstream.hh:163-171) of a value with `n` bytes and alignment `al`. The argument `checkLength` is not used by the code. -/
def Stream.readT (dbg : Bool) (s : Stream) (al n : Nat) : Res (Stream × List (Option Nat)) :=
  if dbg ∧ ¬ s.rb + n ≤ s.wb then .failed
  else if s.rb % al ≠ 0 then .undefined
  else if ¬ s.rb + n ≤ s.buf.length then .undefined
  else .ok ({ s with rb := s.rb + n }, (s.buf.drop s.rb).take n)

/-- `write(const char*, size_t)` (misc/objectstream.hh:215-224). -/
def Stream.writeRaw (s : Stream) (v : List Nat) : Stream :=
  if v.length = 0 then s
  else
    let s1 := if s.wb + v.length > s.buf.length then s.realloc (s.wb + v.length) else s
    { s1 with buf := store s1.buf s.wb v, wb := s.wb + v.length }

/-- `read(char*, size_t)` (misc/objectstream.hh:227-235). -/
def Stream.readRaw (dbg : Bool) (s : Stream) (n : Nat) : Res (Stream × List (Option Nat)) :=
  if n = 0 then .ok (s, []) else s.readT dbg 1 n

/-- `reserve` (misc/objectstream.hh:92-95). -/
def Stream.reserve (s : Stream) (n : Nat) : Stream := if s.wb + n > s.buf.length then s.realloc (s.wb + n) else s

/-- `clear` (misc/objectstream.hh:67-70). -/
def Stream.clear (s : Stream) : Stream := { s with wb := 0, rb := 0 }

/-- `resetReadPosition` (misc/objectstream.hh:73). -/
def Stream.rewind (s : Stream) : Stream := { s with rb := 0 }

/-- `removeObject` (misc/objectstream.hh:200-203). -/
def Stream.skip (dbg : Bool) (s : Stream) (n : Nat) : Res Stream :=
  if dbg ∧ ¬ s.rb + n ≤ s.wb then .failed else .ok { s with rb := s.rb + n }

/-- Receiving a message (communication.hh:111-118): `reserve`, `clear`, bytes written to the buffer by MPI, `seekp`. -/
def Stream.recv (dbg : Bool) (s : Stream) (v : List Nat) : Res Stream :=
  let s1 := (s.reserve v.length).clear
  if ¬ v.length ≤ s1.buf.length then (if dbg then .failed else .undefined)
  else .ok { s1 with buf := store s1.buf 0 v, wb := v.length }

/-- `eof` (misc/objectstream.hh:137). -/
def Stream.eof (s : Stream) : Bool := decide (s.rb ≥ s.wb)

/-- The bytes that `readStream(os)` writes to `os` (misc/objectstream.hh:186-194): `_wb` bytes from the read position. -/
def Stream.readStream (dbg : Bool) (s : Stream) : Res (Stream × List (Option Nat)) :=
  if s.wb = 0 then .ok (s, [])
  else if ¬ s.rb + s.wb ≤ s.buf.length then .undefined
  else (s.skip dbg s.wb).bind fun t => .ok (t, (s.buf.drop s.rb).take s.wb)

/-- Calls. (Models: misc/objectstream.hh:67-235.) -/
inductive Op
  | write (al : Nat) (v : List Nat)
  | read (al n : Nat)
  | writeRaw (v : List Nat)
  | readRaw (n : Nat)
  | reserve (n : Nat)
  | clear
  | rewind
  | skip (n : Nat)
  | recv (v : List Nat)

/-- One call, with the bytes that are read. (Models: misc/objectstream.hh:67-235.) -/
def step (dbg : Bool) (s : Stream) : Op → Res (Stream × List (List (Option Nat)))
  | .write al v => (s.writeT dbg true al v).bind fun t => .ok (t, [])
  | .read al n => (s.readT dbg al n).bind fun t => .ok (t.1, [t.2])
  | .writeRaw v => .ok (s.writeRaw v, [])
  | .readRaw n => (s.readRaw dbg n).bind fun t => .ok (t.1, [t.2])
  | .reserve n => .ok (s.reserve n, [])
  | .clear => .ok (s.clear, [])
  | .rewind => .ok (s.rewind, [])
  | .skip n => (s.skip dbg n).bind fun t => .ok (t, [])
  | .recv v => (s.recv dbg v).bind fun t => .ok (t, [])

/-- Several calls, with everything that is read. (Models: no code of its own: a history.) -/
def run (dbg : Bool) : List Op → Stream → Res (Stream × List (List (Option Nat)))
  | [], s => .ok (s, [])
  | op :: ops, s => (step dbg s op).bind fun t => (run dbg ops t.1).bind fun u => .ok (u.1, t.2 ++ u.2)

/-! ## Ownership of buffers -/

/-- A stream object: the buffer it points to, and `_owner`. `_len` is positive exactly if there is a buffer. (Models:
misc/objectstream.hh:34-64, 300-310.) -/
structure Obj where
  buf : Option Nat
  owner : Bool
  deriving DecidableEq

/-- Objects that exist, buffers that have been freed, number of buffers allocated so far. (Models: no code of its
own.) -/
structure World where
  objs : List (Nat × Obj)
  freed : List Nat
  next : Nat
  deriving DecidableEq

/-- The object with a name. (Models: no code of its own.) -/
def World.get (w : World) (i : Nat) : Option Obj := (w.objs.find? fun p => p.1 = i).map (·.2)

/-- Change of an object, or a new one. (Models: no code of its own.) -/
def World.set (w : World) (i : Nat) (o : Obj) : World := { w with objs := (i, o) :: w.objs.filter fun p => p.1 ≠ i }

/-- `free` of a buffer. (Models: misc/objectstream.hh:209-213.) -/
def World.free (w : World) (b : Nat) : Res World := if b ∈ w.freed then .undefined else .ok { w with freed := b :: w.freed }

/-- `removeObj` (misc/objectstream.hh:258-266). -/
def World.removeObj (w : World) (i : Nat) (o : Obj) : Res World :=
  match o.owner, o.buf with
  | true, some b => (w.free b).bind fun w => .ok (w.set i ⟨none, true⟩)
  | _, _ => .ok (w.set i ⟨none, true⟩)

/-- `assign(os)` (misc/objectstream.hh:269-284) for an object `i` without buffer. -/
def World.assign (w : World) (i j : Nat) : Res World :=
  match w.get j with
  | some ⟨some b, _⟩ => .ok ((w.set j ⟨some b, false⟩).set i ⟨some b, true⟩)
  | some ⟨none, _⟩ => .ok w
  | none => .undefined

/-- Calls. `write i grow`: a write that makes the buffer grow (or allocates it), or not. `read`: access to the buffer.
(Models: misc/objectstream.hh:53-107, 246-284.) -/
inductive OwnOp
  | create (i : Nat)
  | copy (i j : Nat)
  | assign (i j : Nat)
  | write (i : Nat) (grow : Bool)
  | read (i : Nat)
  | reset (i : Nat)
  | destroy (i : Nat)
  deriving DecidableEq

/-- One call. Creation of an object that exists already and use of one that does not exist are errors of the program that
are not considered. `realloc` (misc/objectstream.hh:250) frees the old buffer. With assertions a write needs the ownership (misc/objectstream.hh:147, 216, 247). -/
def ownStep (dbg : Bool) (w : World) : OwnOp → Res World
  | .create i => .ok (w.set i ⟨none, true⟩)
  | .copy i j => (w.set i ⟨none, true⟩).assign i j
  | .assign i j =>
    match w.get i with
    | some o => (w.removeObj i o).bind fun w => w.assign i j
    | none => .undefined
  | .write i grow =>
    match w.get i with
    | none => .undefined
    | some o =>
      if dbg ∧ ¬ o.owner then .failed
      else
        match o.buf with
        | none => .ok { (w.set i ⟨some w.next, o.owner⟩) with next := w.next + 1 }
        | some b =>
          if b ∈ w.freed then .undefined
          else if grow then (w.free b).bind fun w => .ok { (w.set i ⟨some w.next, o.owner⟩) with next := w.next + 1 }
          else .ok w
  | .read i =>
    match w.get i with
    | none => .undefined
    | some o =>
      match o.buf with
      | none => .ok w
      | some b => if b ∈ w.freed then .undefined else .ok w
  | .reset i =>
    match w.get i with
    | some o => w.removeObj i o
    | none => .undefined
  | .destroy i =>
    match w.get i with
    | some o => (w.removeObj i o).bind fun w => .ok { w with objs := w.objs.filter fun p => p.1 ≠ i }
    | none => .undefined

/-- Several calls. (Models: no code of its own: a history.) -/
def ownRun (dbg : Bool) : List OwnOp → World → Res World
  | [], w => .ok w
  | op :: ops, w => (ownStep dbg w op).bind (ownRun dbg ops)

/-- No objects. (Models: no code of its own.) -/
def World.empty : World := ⟨[], [], 0⟩

end Verif.ObjStream
