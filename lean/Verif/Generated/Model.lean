/-!
# Modules generated at run time (python/dune/mmesh/_skeletontrace.py, _utility.py, _solve.py)

`skeleton`, `trace`, `interfaceIndicator(igrid, grid)` and `monolithicSolve` write the source of a C++ module for the types
of their arguments, have it compiled and loaded under a name computed from these types, and take a class from the module.

Not code of the repository, and assumed here: the generator of dune-common. `load` with a name under which a module has been
loaded before in the same Python process gives that module again (Python's `sys.modules`); otherwise the given source is
compiled and loaded. Types are given by their C++ names.
-/

namespace Verif.Generated

/-- Texts. -/
abbrev Text := List Char

/-- A text of the source (kept folded by the tactics). -/
@[irreducible] def txt (s : String) : Text := s.toList

/-- The functions that load a module, with the C++ names of the types of their arguments: `skeleton`
(_skeletontrace.py:16-45), `trace` (_skeletontrace.py:48-102), `interfaceIndicator` with a grid (_utility.py:45-75),
`monolithicSolve` (_solve.py:123-182) with the types of `scheme`, `ischeme`, `uh`, `th` and the argument `iterative`. -/
inductive Call
  | skeleton (grid function : Text)
  | trace (igrid function : Text)
  | indicator (grid : Text)
  | jacobian (scheme ischeme uh th : Text) (iterative : Bool)
deriving DecidableEq

/-- A module: the classes by the names they have in Python, each with the C++ type it wraps, and the header of dune-mmesh the
source includes (_skeletontrace.py:32, 62, _utility.py:52, _solve.py:172). -/
structure Module where
  header : Text
  classes : List (String × Text)
deriving DecidableEq

/-- `typeName` of `skeleton` (_skeletontrace.py:36). -/
def skeletonType (G F : Text) : Text := txt "Dune::Fem::SkeletonGF< " ++ G ++ txt ", " ++ F ++ txt " >"

/-- An entry of `typeName` of `trace` (_skeletontrace.py:67-69). -/
def traceType (G F side : Text) : Text :=
  txt "Dune::Fem::TraceGF< " ++ G ++ txt ", " ++ F ++ txt ", " ++ (txt "Dune::Fem::IntersectionSide::" ++ side) ++ txt " >"

/-- The type registered by `interfaceIndicator` (_utility.py:64-67). -/
def indicatorType (G : Text) : Text := txt "Dune::Fem::InterfaceIndicator< typename " ++ G ++ txt " >"

/-- `typeName` of `monolithicSolve` (_solve.py:170-171). -/
def jacobianType (S I U T : Text) : Text :=
  txt "Dune::Python::MMesh::Jacobian< " ++ S ++ txt ", " ++ I ++ txt ", " ++ U ++ txt ", " ++ T ++ txt " >"

/-- `header` of `monolithicSolve` (_solve.py:166-169, 172). -/
def jacobianHeader (iterative : Bool) : Text :=
  if iterative then txt "dune/python/mmesh/jacobian_iterative.hh" else txt "dune/python/mmesh/jacobian.hh"

/-- The text from which the name of the module is computed (_skeletontrace.py:37, 70, _utility.py:47, _solve.py:173). -/
def text : Call → Text
  | .skeleton G F => skeletonType G F
  | .trace G F => traceType G F (txt "in") ++ traceType G F (txt "out")
  | .indicator G => G
  | .jacobian S I U T _ => jacobianType S I U T

/-- `moduleName` (_skeletontrace.py:37, 70, _utility.py:47, _solve.py:173). `md5` and `hashIt` are the functions of Python
and dune-common that compute a name from a text. -/
def moduleName (md5 hashIt : Text → Text) : Call → Text
  | .skeleton G F => txt "skeleton_" ++ md5 (text (.skeleton G F))
  | .trace G F => txt "skeleton_" ++ md5 (text (.trace G F))
  | .indicator G => txt "interfaceindicator_" ++ hashIt (text (.indicator G))
  | .jacobian S I U T it => txt "jacobian_" ++ md5 (text (.jacobian S I U T it))

/-- The module that is compiled (_skeletontrace.py:32-38, 62-71, _utility.py:49-73, _solve.py:166-180). -/
def source : Call → Module
  | .skeleton G F => ⟨txt "dune/python/mmesh/pyskeletontrace.hh", [("SkeletonGF", skeletonType G F)]⟩
  | .trace G F =>
      ⟨txt "dune/python/mmesh/pyskeletontrace.hh",
        [("TraceGFP", traceType G F (txt "in")), ("TraceGFM", traceType G F (txt "out"))]⟩
  | .indicator G => ⟨txt "dune/python/mmesh/utility.hh", [("InterfaceIndicator", indicatorType G)]⟩
  | .jacobian S I U T it => ⟨jacobianHeader it, [("Jacobian", jacobianType S I U T)]⟩

/-- The modules that have been loaded in the process (`sys.modules`), the latest one first; dune-common, called in
_skeletontrace.py:38, 71, _utility.py:73, _solve.py:180. -/
abbrev Loaded := List (Text × Module)

/-- `generator.load` and `builder.load` (dune-common, called in _skeletontrace.py:38, 71, _utility.py:73, _solve.py:180). -/
def load (name : Text) (src : Module) (l : Loaded) : Module × Loaded :=
  match l.lookup name with
  | some m => (m, l)
  | none => (src, (name, src) :: l)

/-- One call (_skeletontrace.py:38, 71, _utility.py:73, _solve.py:180): the module it works with, and the modules loaded
afterwards. -/
def call (md5 hashIt : Text → Text) (l : Loaded) (c : Call) : Module × Loaded :=
  load (moduleName md5 hashIt c) (source c) l

/-- The modules loaded after the calls of a process, the first call first (no code of its own). -/
def history (md5 hashIt : Text → Text) (cs : List Call) : Loaded :=
  cs.foldl (fun l c => (call md5 hashIt l c).2) []

/-- The module the call `c` works with if the calls `cs` were made before (no code of its own). -/
def after (md5 hashIt : Text → Text) (cs : List Call) (c : Call) : Module :=
  (call md5 hashIt (history md5 hashIt cs) c).1

/-- The C++ type behind the class with the name `n` of a module: `cls.SkeletonGF`, `module.TraceGFP`, `module.TraceGFM`,
`module.InterfaceIndicator`, `module.Jacobian` (_skeletontrace.py:39, 72-73, _utility.py:75, _solve.py:181). `none`: Python
raises `AttributeError`. -/
def Module.get (m : Module) (n : String) : Option Text := m.classes.lookup n

end Verif.Generated
