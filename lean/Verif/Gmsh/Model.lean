/-!
# Gmsh reader (model)

grid/gmshgridfactory.hh. A file is a list of lines; a line is one of the four section markers or a list of
white-space separated words. A word is given by what `stream >> size_t` and `stream >> double` make of it (`none`:
the stream fails). Simplification: one word is one number (a word like `1.5abc` is not split by the model).
-/

namespace Verif.Gmsh

/-- The lines searched for with `line.find`. (Models: grid/gmshgridfactory.hh:92, 103, 128, 138.) -/
inductive Marker where
  | nodes | endNodes | elements | endElements
  deriving DecidableEq

/-- A word of a line. (Models: grid/gmshgridfactory.hh:104-115, 139-152.) -/
structure Word (K : Type) where
  nat : Option Nat
  real : Option K

/-- A line of the file. (Models: grid/gmshgridfactory.hh:90-172.) -/
inductive Line (K : Type) where
  | marker (m : Marker)
  | words (l : List (Word K))

/-- The calls made on the grid factory. (Models: grid/gmshgridfactory.hh:116, 156-166.) -/
inductive Call (K : Type) where
  | insertVertex (x : List K)
  | insertElement (corners : List Nat) (marker : Nat)
  | insertInterface (corners : List Nat) (marker : Nat)
  | insertBoundarySegment (corners : List Nat)
  | insertInterfaceBoundarySegment (corners : List Nat)

/-- The outcome of reading: a value, an exception, the abort of a failed `assert` (debug builds), or undefined
behaviour (access outside a vector). (Models: grid/gmshgridfactory.hh:94, 112, 124.) -/
inductive Res (α : Type) where
  | ok (a : α)
  | throws
  | abort
  | undefined

/-- Sequencing. (Models: no code of its own.) -/
def Res.bind {α β : Type} (r : Res α) (f : α → Res β) : Res β :=
  match r with
  | .ok a => f a
  | .throws => .throws
  | .abort => .abort
  | .undefined => .undefined

variable {K : Type}

/-- gmshgridfactory.hh:197-216 `obtainGeometryType`, the dimension of the type (`none`: throws). -/
def geometryDim (gmshElemType : Nat) : Option Nat :=
  match gmshElemType with
  | 15 => some 0
  | 1 => some 1
  | 2 => some 2
  | 3 => some 2
  | 4 => some 3
  | 5 => some 3
  | _ => none

/-- gmshgridfactory.hh:152: `*it - 1` in 64 bit, converted to a 32 bit number. -/
def corner (x : Nat) : Nat := (x + 2 ^ 64 - 1) % 2 ^ 64 % 2 ^ 32

/-- gmshgridfactory.hh:155-166: the calls for one element of dimension `g` in a grid of dimension `dim`. -/
def insertCalls (dim g : Nat) (corners : List Nat) (marker : Nat) : List (Call K) :=
  (if g = dim then [.insertElement corners marker] else []) ++
  (if g + 1 = dim then [.insertInterface corners marker, .insertBoundarySegment corners] else []) ++
  (if g + 2 = dim then [.insertInterfaceBoundarySegment corners] else [])

/-- gmshgridfactory.hh:142-166: one element line, its numbers being `lineData`. `debug`: assertions are active. -/
def elementLine (debug : Bool) (dim : Nat) (lineData : List Nat) : Res (List (Call K)) :=
  if debug ∧ lineData.length < 4 then .abort else
  match lineData[1]? with
  | none => .undefined
  | some t =>
    match geometryDim t with
    | none => .throws
    | some g =>
      match lineData[2]? with
      | none => .undefined
      | some ntags =>
        -- `begin + 2 + lineData[2] + 1` must not be beyond `end`
        if 2 + ntags + 1 ≤ lineData.length then
          match lineData[2 + ntags]? with
          | none => .undefined
          | some marker => .ok (insertCalls dim g ((lineData.drop (2 + ntags + 1)).map corner) marker)
        else .undefined

/-- `std::getline` without check of the result: an empty line at the end of the file. (Models:
grid/gmshgridfactory.hh:91, 98, 101, 133, 137.) -/
def getline : List (Line K) → Line K × List (Line K)
  | [] => (.words [], [])
  | l :: ls => (l, ls)

/-- The line contains the marker. (Models: grid/gmshgridfactory.hh:92, 103, 128, 138.) -/
def Line.isMarker (l : Line K) (m : Marker) : Bool :=
  match l with
  | .marker m' => decide (m' = m)
  | .words _ => false

/-- gmshgridfactory.hh:91-95, 128-130: skip to a marker; what follows it, or the end of the file is reached. -/
def skipTo (m : Marker) : List (Line K) → Option (List (Line K))
  | [] => none
  | l :: ls => if l.isMarker m then some ls else skipTo m ls

/-- gmshgridfactory.hh:185-194 `convertString<std::size_t>(line)`: the first word. A marker line starts with `$` and
gives no number. -/
def count : Line K → Option Nat
  | .words (w :: _) => w.nat
  | .words [] => none
  | .marker _ => none

/-- gmshgridfactory.hh:105-113: drop the first word, read `dim` coordinates. -/
def coordinates (dim : Nat) : Line K → Option (List K)
  | .marker _ => none
  | .words l =>
    let cs := ((l.drop 1).take dim).map Word.real
    if cs.length = dim then cs.mapM id else none

/-- gmshgridfactory.hh:103-120: the loop over the node lines; `line` is the current line, `rest` what follows. -/
def readNodes (dim : Nat) : Line K → List (Line K) → List (Call K) → Nat → Res (List (Call K) × Nat × List (Line K))
  | line, rest, calls, n =>
    if line.isMarker .endNodes then .ok (calls, n, rest) else
    match coordinates dim line with
    | none => .throws
    | some x =>
      match rest with
      | [] => .throws
      | line' :: rest' => readNodes dim line' rest' (calls ++ [.insertVertex x]) (n + 1)
termination_by _ rest _ _ => rest.length

/-- gmshgridfactory.hh:140-143: all words of the line as numbers. -/
def numbers : Line K → Option (List Nat)
  | .marker _ => none
  | .words l => (l.map Word.nat).mapM id

/-- gmshgridfactory.hh:138-172: the loop over the element lines. -/
def readElements (debug : Bool) (dim : Nat) : Line K → List (Line K) → List (Call K) → Nat → Res (List (Call K) × Nat)
  | line, rest, calls, n =>
    if line.isMarker .endElements then .ok (calls, n) else
    match numbers line with
    | none => .throws
    | some lineData =>
      (elementLine debug dim lineData).bind fun c =>
      match rest with
      | [] => .throws
      | line' :: rest' => readElements debug dim line' rest' (calls ++ c) (n + 1)
termination_by _ rest _ _ => rest.length

/-- gmshgridfactory.hh:88-180 `generate`: the calls made, in order. Exceptions thrown by the factory itself are not
part of this function. -/
def generate (debug : Bool) (dim : Nat) (file : List (Line K)) : Res (List (Call K)) :=
  match skipTo .nodes file with
  | none => .throws
  | some f1 =>
    let (l1, f2) := getline f1
    match count l1 with
    | none => .throws
    | some numVertices =>
      let (l2, f3) := getline f2
      (readNodes dim l2 f3 [] 0).bind fun r =>
      if r.2.1 ≠ numVertices then .throws else
      match skipTo .elements r.2.2 with
      | none => .throws
      | some f4 =>
        let (l4, f5) := getline f4
        match count l4 with
        | none => .throws
        | some numElements =>
          let (l5, f6) := getline f5
          (readElements debug dim l5 f6 r.1 0).bind fun e =>
          if e.2 ≠ numElements then .throws else .ok e.1

end Verif.Gmsh
