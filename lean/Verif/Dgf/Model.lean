import Verif.Markers.Props
import Verif.BoundaryIds.Model

/-!
# The DGF reader (model)

`DGFGridFactory` of grid/dgfparser.hh: its two constructors, `generate`, `grid`, `parameter` and `numParameters`. The parser of dune-grid that
reads the text of the file is not modelled: its result is an input.
-/

namespace Verif.Dgf

open Markers

/-- What `DuneGridFormatParser` has stored after `readDuneGrid` (members used in grid/dgfparser.hh:101-131 and :56-78): `vtx`, `elements`, `facemap` (vertices
and boundary id of every face, in the order of the map), `elParams` and `vtxParams`. The coordinates are of a field instead of double. -/
structure File (d : Nat) (K : Type*) where
  vtx : List (Fin d → K)
  elements : List (Fin (d + 1) → Nat)
  facemap : List (List Nat × Nat)
  elParams : List (List K)
  vtxParams : List (List K)

/-- The result of `dgf_.readDuneGrid(input, dimension, dimension)` (grid/dgfparser.hh:98): an exception of the parser, `false`, or `true` with the
data of the file. -/
inductive Read (d : Nat) (K : Type*)
  | exception
  | no
  | yes (file : File d K)

/-- The object of type `DGFGridFactory` (grid/dgfparser.hh:135-137). `grid = none` is the pointer `grid_` that has not been initialised: there is no
initialiser in the class and none in the constructors (154-176). `cells` are those of the grid, as in `Markers`. -/
structure Obj (d : Nat) (K : Type*) where
  grid : Option (List (Cell d))
  fac : Fac d K
  bnd : BoundaryIds.Factory
  elParams : List (List K)
  vtxParams : List (List K)

/-- The members before the body of a constructor (grid/dgfparser.hh:155-157, 167-169). -/
def Obj.init (d : Nat) (K : Type*) : Obj d K := ⟨none, Fac.init d K, {}, [], []⟩

/-- grid/dgfparser.hh:100-112: the calls of the factory for the vertices and elements of the file. -/
def calls {d : Nat} {K : Type*} (file : File d K) : List (FCall d K) :=
  file.vtx.map .vertex ++ file.elements.map .plainElement

variable {K : Type*} [Field K] [LinearOrder K]

/-- grid/dgfparser.hh:93-133 `generate`. The result is `none` for an exception, else the value returned and the object. The faces are those
of `BoundaryIds.dgfFaces`; the order of the elements in the grid is any that `std::sort` may give (`Markers.Created`), hence a relation. -/
inductive Generate {d : Nat} (orient : (Fin (d + 1) → Nat) → Fin (d + 1) → Nat) (x : Nat → K) (o : Obj d K) :
    Read d K → Option (Bool × Obj d K) → Prop
  /-- 98: exception of the parser -/
  | exception : Generate orient x o .exception none
  /-- 98: `return false` -/
  | no : Generate orient x o .no (some (false, o))
  /-- 115-131: exception in `insertBoundarySegment` -/
  | faces {file} : BoundaryIds.dgfFaces (BoundaryIds.dgfVertices file.vtx.length) file.facemap = none →
      Generate orient x o (.yes file) none
  /-- 100-134 -/
  | yes {file bnd cells} : BoundaryIds.dgfFaces (BoundaryIds.dgfVertices file.vtx.length) file.facemap = some bnd →
      Created orient x ((calls file).foldl fstep o.fac) cells →
      Generate orient x o (.yes file) (some (true, ⟨some cells, (calls file).foldl fstep o.fac, bnd, file.elParams, file.vtxParams⟩))

/-- grid/dgfparser.hh:154-161: the constructor with a stream. `seekable` says whether the stream could be reset. The result is `none` for an exception. -/
inductive FromStream {d : Nat} (orient : (Fin (d + 1) → Nat) → Fin (d + 1) → Nat) (x : Nat → K) (seekable : Bool) (input : Read d K) :
    Option (Obj d K) → Prop
  /-- 159 -/
  | notSeekable : seekable = false → FromStream orient x seekable input none
  /-- 160: exception of `generate` -/
  | exception : seekable = true → Generate orient x (Obj.init d K) input none → FromStream orient x seekable input none
  /-- 160: the value of `generate` is ignored -/
  | generated {b o} : seekable = true → Generate orient x (Obj.init d K) input (some (b, o)) → FromStream orient x seekable input (some o)

/-- grid/dgfparser.hh:165-176: the constructor with the name of a file. `found` says whether the file could be opened. -/
inductive FromFile {d : Nat} (orient : (Fin (d + 1) → Nat) → Fin (d + 1) → Nat) (x : Nat → K) (found : Bool) (input : Read d K) :
    Option (Obj d K) → Prop
  /-- 171-172 -/
  | notFound : found = false → FromFile orient x found input none
  /-- 173: exception of `generate` -/
  | exception : found = true → Generate orient x (Obj.init d K) input none → FromFile orient x found input none
  /-- 173-175: exception -/
  | no {o} : found = true → Generate orient x (Obj.init d K) input (some (false, o)) → FromFile orient x found input none
  /-- 173 -/
  | generated {o} : found = true → Generate orient x (Obj.init d K) input (some (true, o)) → FromFile orient x found input (some o)

omit [Field K] [LinearOrder K]

/-- grid/dgfparser.hh:87-90 `numParameters`, for the codimension. -/
def numParameters {d : Nat} (_o : Obj d K) (_codim : Nat) : Int := 0

/-- grid/dgfparser.hh:56-63 `parameter(element)` of an element with the given insertion index; `none` for the exception or an index out of range. -/
def elementParameter {d : Nat} (o : Obj d K) (insertionIndex : Nat) : Option (List K) :=
  if numParameters o 0 ≤ 0 then none else o.elParams[insertionIndex]?

/-- grid/dgfparser.hh:66-73 `parameter(vertex)`. -/
def vertexParameter {d : Nat} (o : Obj d K) (insertionIndex : Nat) : Option (List K) :=
  if numParameters o d ≤ 0 then none else o.vtxParams[insertionIndex]?

end Verif.Dgf
