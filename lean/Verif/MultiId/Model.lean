/-!
# Model of `MultiId` (dune/mmesh/grid/multiid.hh)

A `MultiId` is an array of four machine words, a size and a cached hash value.
Reading or writing outside the array is the distinct outcome `none` ("undefined behaviour").
-/

namespace Verif.MultiId

/-- `using T = std::size_t` (multiid.hh l.18), a 64 bit word. -/
abbrev Word := BitVec 64

/-- Members of `MultiId` (multiid.hh l.22, l.95-97). Entries of `vt` at positions `≥ size` are
uninitialised in the code; here they are arbitrary values. -/
structure MId where
  vt : Fin 4 → Word
  size : Nat
  hash : Word

/-- `std::size_t(-1)`: the "hash not computed yet" marker (multiid.hh l.24, l.29, l.80). -/
def noHash : Word := BitVec.allOnes 64

/-- Array access `vt_[i]`; outside the array it is undefined behaviour. (Models: multiid.hh:51, 60, 74, 87-89.) -/
def MId.at (m : MId) (i : Nat) : Option Word :=
  if h : i < 4 then some (m.vt ⟨i, h⟩) else none

/-- Array write `vt_[i] = v`; outside the array it is undefined behaviour. (Models: multiid.hh:31.) -/
def MId.put (m : MId) (i : Nat) (v : Word) : Option MId :=
  if i < 4 then some { m with vt := fun j => if j.val = i then v else m.vt j } else none

/-- The copying loop of the vector constructor (multiid.hh l.30-31). -/
def MId.fill (m : MId) : Nat → List Word → Option MId
  | _, [] => some m
  | i, v :: vs => (m.put i v).bind fun m' => m'.fill (i + 1) vs

/-- `MultiId(const std::vector<T>& vt)` (multiid.hh l.29-32); `junk` is the uninitialised memory of
`vt_`. The constructors from an initializer list and from a single number (l.34, l.36) delegate to it. -/
def ofList (junk : Fin 4 → Word) (l : List Word) : Option MId :=
  (MId.mk junk l.length noHash).fill 0 l

/-- `MultiId()` (multiid.hh l.24). -/
def empty (junk : Fin 4 → Word) : MId := ⟨junk, 0, noHash⟩

/-- Loop of `operator<` (multiid.hh l.50-53); first argument: remaining iterations. -/
def ltFrom (a b : MId) : Nat → Nat → Option Bool
  | 0, _ => some false
  | n + 1, i => do
    let x ← a.at i
    let y ← b.at i
    if x ≠ y then some (decide (x < y)) else ltFrom a b n (i + 1)

/-- `operator<` (multiid.hh l.47-54). -/
def lt (a b : MId) : Option Bool :=
  if a.size ≠ b.size then some (decide (a.size < b.size)) else ltFrom a b a.size 0

/-- Loop of `operator==` (multiid.hh l.59-62). -/
def eqFrom (a b : MId) : Nat → Nat → Option Bool
  | 0, _ => some true
  | n + 1, i => do
    let x ← a.at i
    let y ← b.at i
    if x ≠ y then some false else eqFrom a b n (i + 1)

/-- `operator==` (multiid.hh l.56-63). -/
def eq (a b : MId) : Option Bool :=
  if a.size ≠ b.size then some false else eqFrom a b a.size 0

/-- `operator<=` (multiid.hh l.65). -/
def le (a b : MId) : Option Bool := (lt b a).map (!·)

/-- `operator!=` (multiid.hh l.67). -/
def ne (a b : MId) : Option Bool := (eq a b).map (!·)

/-- Loop of `vt()` (multiid.hh l.74). -/
def vtFrom (m : MId) : Nat → Nat → Option (List Word)
  | 0, _ => some []
  | n + 1, i => do
    let x ← m.at i
    let r ← vtFrom m n (i + 1)
    some (x :: r)

/-- `vt()` (multiid.hh l.71-76). -/
def vt (m : MId) : Option (List Word) := vtFrom m m.size 0

/-- Loop of `hash()` (multiid.hh l.88-89). `h` is `std::hash<std::size_t>`, an unspecified function. -/
def hashFrom (h : Word → Word) (m : MId) : Nat → Nat → Word → Option Word
  | 0, _, acc => some acc
  | n + 1, i, acc => do
    let x ← m.at i
    hashFrom h m n (i + 1) (acc ^^^ (h x <<< i))

/-- `hash()` (multiid.hh l.79-92): returns the value and the object with its (mutable) cache updated. -/
def hash (h : Word → Word) (m : MId) : Option (Word × MId) :=
  if m.hash = noHash then
    if m.size = 0 then some (0, { m with hash := 0 })
    else do
      let x ← m.at 0
      let v ← hashFrom h m (m.size - 1) 1 (h x)
      some (v, { m with hash := v })
  else some (m.hash, m)

/-- What a program does with ids: objects are numbered in order of their creation. (Models: multiid.hh:24-92.) -/
inductive Op where
  /-- construct from a list (multiid.hh l.29-36); `junk` is the initial memory -/
  | mk (junk : Fin 4 → Word) (l : List Word)
  /-- default construction (multiid.hh l.24) -/
  | mkEmpty (junk : Fin 4 → Word)
  /-- copy construction from object `i` (multiid.hh l.26-27) -/
  | copy (i : Nat)
  /-- `obj i = obj j` (multiid.hh l.38-45) -/
  | assign (i j : Nat)
  /-- call `hash()` on object `i` (multiid.hh l.79) -/
  | hash (i : Nat)

/-- One operation on the store of id objects; the second component is the hash value if the operation was
a `hash()` call. `none` is undefined behaviour or use of an object that does not exist. (Models: multiid.hh:24-92.) -/
def step (h : Word → Word) (s : List MId) : Op → Option (List MId × Option Word)
  | .mk junk l => (ofList junk l).map fun m => (s ++ [m], none)
  | .mkEmpty junk => some (s ++ [empty junk], none)
  | .copy i => s[i]?.map fun m => (s ++ [⟨m.vt, m.size, m.hash⟩], none)
  | .assign i j => do
    let _ ← s[i]?
    let m ← s[j]?
    some (if i ≠ j then s.set i ⟨m.vt, m.size, m.hash⟩ else s, none)
  | .hash i => do
    let m ← s[i]?
    let (v, m') ← MultiId.hash h m
    some (s.set i m', some v)

/-- A whole history of operations, with the list of observed hash values. (Models: no code of its own: a history.) -/
def run (h : Word → Word) (s : List MId) : List Op → Option (List MId × List Word)
  | [] => some (s, [])
  | op :: ops => do
    let (s', o) ← step h s op
    let (s'', os) ← run h s' ops
    some (s'', o.toList ++ os)

end Verif.MultiId
