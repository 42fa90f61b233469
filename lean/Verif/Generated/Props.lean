import Verif.Generated.Model
import Mathlib.Data.List.Basic
import Mathlib.Data.List.Induction
import Mathlib.Logic.Function.Basic
import Mathlib.Tactic.Tauto

/-!
# C205, C206: the classes that are loaded
-/

namespace Verif.Generated

variable {md5 hashIt : Text → Text}

theorem prefix_ne {a b : String} (x y : Text) (h : a.toList.head? ≠ b.toList.head?) (ha : a.toList ≠ [])
    (hb : b.toList ≠ []) : txt a ++ x ≠ txt b ++ y := by
  intro e
  have := congrArg (fun s : Text => s.head?) e
  unfold txt at this
  apply h
  rcases ha' : a.toList with _ | ⟨u, us⟩
  · exact absurd ha' ha
  rcases hb' : b.toList with _ | ⟨v, vs⟩
  · exact absurd hb' hb
  rw [ha', hb'] at this
  simpa using this

theorem trace_join {G F G' F' : Text}
    (h : traceType G F (txt "in") ++ traceType G F (txt "out") = traceType G' F' (txt "in") ++ traceType G' F' (txt "out")) :
    traceType G F (txt "in") = traceType G' F' (txt "in") ∧ traceType G F (txt "out") = traceType G' F' (txt "out") := by
  apply List.append_inj h
  have := congrArg List.length h
  simp only [traceType, List.length_append] at this ⊢
  omega

theorem skeleton_ne_trace (G F G' F' : Text) :
    skeletonType G F ≠ traceType G' F' (txt "in") ++ traceType G' F' (txt "out") := by
  intro h
  have := congrArg (fun s : Text => (s.drop 11).head?) h
  have e1 : txt "Dune::Fem::SkeletonGF< " = txt "Dune::Fem::" ++ 'S' :: txt "keletonGF< " := by unfold txt; decide +kernel
  have e2 : txt "Dune::Fem::TraceGF< " = txt "Dune::Fem::" ++ 'T' :: txt "raceGF< " := by unfold txt; decide +kernel
  have l1 : (txt "Dune::Fem::").length = 11 := by unfold txt; decide +kernel
  simp only [skeletonType, traceType, e1, e2, List.append_assoc, List.cons_append] at this
  rw [← l1, List.drop_left, List.drop_left] at this
  simp at this

/-- Among the calls of a process, `h` gives different names to different texts. (`md5` and `hashIt` are not injective, but no
two texts with the same name are known.) -/
def NoCollision (h : Text → Text) (cs : List Call) : Prop :=
  ∀ a ∈ cs, ∀ b ∈ cs, h (text a) = h (text b) → text a = text b

/-- Calls with the same name of the module: they compile the same module, except for the header of the Jacobian. -/
theorem same_name {c c' : Call} (hm : md5 (text c) = md5 (text c') → text c = text c')
    (hh : hashIt (text c) = hashIt (text c') → text c = text c')
    (h : moduleName md5 hashIt c = moduleName md5 hashIt c') :
    (source c).classes = (source c').classes ∧
      ((∀ S I U T b, c ≠ .jacobian S I U T b) → (source c).header = (source c').header) := by
  have n1 : ∀ x y, txt "skeleton_" ++ x ≠ txt "interfaceindicator_" ++ y :=
    fun x y => prefix_ne x y (by decide +kernel) (by decide +kernel) (by decide +kernel)
  have n2 : ∀ x y, txt "skeleton_" ++ x ≠ txt "jacobian_" ++ y :=
    fun x y => prefix_ne x y (by decide +kernel) (by decide +kernel) (by decide +kernel)
  have n3 : ∀ x y, txt "interfaceindicator_" ++ x ≠ txt "jacobian_" ++ y :=
    fun x y => prefix_ne x y (by decide +kernel) (by decide +kernel) (by decide +kernel)
  cases c <;> cases c' <;> simp only [moduleName] at h
  case skeleton.skeleton =>
    have e : skeletonType _ _ = skeletonType _ _ := hm (List.append_cancel_left h)
    simp only [source, e, true_and]; exact fun _ => trivial
  case skeleton.trace => exact absurd (hm (List.append_cancel_left h)) (skeleton_ne_trace _ _ _ _)
  case trace.skeleton => exact absurd (hm (List.append_cancel_left h)).symm (skeleton_ne_trace _ _ _ _)
  case trace.trace =>
    obtain ⟨e1, e2⟩ := trace_join (hm (List.append_cancel_left h))
    simp only [source, e1, e2, true_and]; exact fun _ => trivial
  case indicator.indicator =>
    have e := hh (List.append_cancel_left h)
    simp only [text] at e
    simp only [source, e, true_and]; exact fun _ => trivial
  case jacobian.jacobian =>
    have e : jacobianType _ _ _ _ = jacobianType _ _ _ _ := hm (List.append_cancel_left h)
    refine ⟨by simp only [source, e], fun hn => absurd rfl (hn _ _ _ _ _)⟩
  case skeleton.indicator => exact absurd h (n1 _ _)
  case skeleton.jacobian => exact absurd h (n2 _ _)
  case trace.indicator => exact absurd h (n1 _ _)
  case trace.jacobian => exact absurd h (n2 _ _)
  case indicator.skeleton => exact absurd h.symm (n1 _ _)
  case indicator.trace => exact absurd h.symm (n1 _ _)
  case indicator.jacobian => exact absurd h (n3 _ _)
  case jacobian.skeleton => exact absurd h.symm (n2 _ _)
  case jacobian.trace => exact absurd h.symm (n2 _ _)
  case jacobian.indicator => exact absurd h.symm (n3 _ _)

/-- What is loaded under a name is the source of the first call with this name. -/
theorem lookup_history (cs : List Call) (n : Text) :
    (history md5 hashIt cs).lookup n = (cs.find? fun c => moduleName md5 hashIt c == n).map source := by
  induction cs using List.reverseRecOn with
  | nil => rfl
  | append_singleton cs c ih =>
    have e : history md5 hashIt (cs ++ [c]) = (call md5 hashIt (history md5 hashIt cs) c).2 := by
      simp [history, List.foldl_append]
    rw [e, List.find?_append]
    unfold call load
    by_cases hn : moduleName md5 hashIt c = n
    · subst hn
      rcases hf : cs.find? (fun c' => moduleName md5 hashIt c' == moduleName md5 hashIt c) with _ | c'
      · rw [hf] at ih
        simp only [Option.map_none] at ih
        rw [ih]
        simp
      · rw [hf] at ih
        simp only [Option.map_some] at ih
        rw [ih]
        simpa using ih
    · have hb : (moduleName md5 hashIt c == n) = false := by simpa using hn
      have hb' : (n == moduleName md5 hashIt c) = false := by simpa using fun h => hn h.symm
      rcases hl : (history md5 hashIt cs).lookup (moduleName md5 hashIt c) with _ | m
      · simp only [List.lookup_cons, hb', ih, List.find?_cons, hb, List.find?_nil, Option.or_none]
      · simp only [ih, List.find?_cons, hb, List.find?_nil, Option.or_none]

/-- The module of a call is the source of the first call with the same name. -/
theorem after_eq (cs : List Call) (c : Call) :
    after md5 hashIt cs c = source (((cs.find? fun c' => moduleName md5 hashIt c' == moduleName md5 hashIt c)).getD c) := by
  unfold after call load
  rw [lookup_history]
  rcases cs.find? fun c' => moduleName md5 hashIt c' == moduleName md5 hashIt c with _ | c' <;> rfl

theorem after_name (cs : List Call) (c : Call) :
    ∃ c' ∈ c :: cs, after md5 hashIt cs c = source c' ∧ moduleName md5 hashIt c' = moduleName md5 hashIt c := by
  rw [after_eq]
  rcases hf : cs.find? fun c' => moduleName md5 hashIt c' == moduleName md5 hashIt c with _ | c'
  · exact ⟨c, List.mem_cons_self, rfl, rfl⟩
  · exact ⟨c', List.mem_cons_of_mem _ (List.mem_of_find?_eq_some hf), rfl, by simpa using List.find?_some hf⟩

theorem after_classes (cs : List Call) (c : Call) (hm : NoCollision md5 (c :: cs)) (hh : NoCollision hashIt (c :: cs)) :
    (after md5 hashIt cs c).classes = (source c).classes := by
  obtain ⟨c', hc', e, hn⟩ := after_name (md5 := md5) (hashIt := hashIt) cs c
  rw [e, (same_name (hm _ hc' _ List.mem_cons_self) (hh _ hc' _ List.mem_cons_self) hn).1]

/-- C205 for `skeleton`: whatever was called before, the object is of the class for the types of the arguments. -/
theorem C205_skeleton (cs : List Call) (G F : Text)
    (hm : NoCollision md5 (.skeleton G F :: cs)) (hh : NoCollision hashIt (.skeleton G F :: cs)) :
    (after md5 hashIt cs (.skeleton G F)).get "SkeletonGF" =
      some (txt "Dune::Fem::SkeletonGF< " ++ G ++ txt ", " ++ F ++ txt " >") := by
  unfold Module.get
  rw [after_classes _ _ hm hh]
  simp [source, skeletonType, List.lookup]

/-- C205 for `trace`: both sides. -/
theorem C205_trace (cs : List Call) (G F : Text)
    (hm : NoCollision md5 (.trace G F :: cs)) (hh : NoCollision hashIt (.trace G F :: cs)) :
    (after md5 hashIt cs (.trace G F)).get "TraceGFP" =
        some (txt "Dune::Fem::TraceGF< " ++ G ++ txt ", " ++ F ++ txt ", Dune::Fem::IntersectionSide::in >") ∧
      (after md5 hashIt cs (.trace G F)).get "TraceGFM" =
        some (txt "Dune::Fem::TraceGF< " ++ G ++ txt ", " ++ F ++ txt ", Dune::Fem::IntersectionSide::out >") := by
  unfold Module.get
  rw [after_classes _ _ hm hh]
  have e1 : txt ", Dune::Fem::IntersectionSide::in >" =
      txt ", " ++ (txt "Dune::Fem::IntersectionSide::" ++ txt "in") ++ txt " >" := by
    unfold txt; decide +kernel
  have e2 : txt ", Dune::Fem::IntersectionSide::out >" =
      txt ", " ++ (txt "Dune::Fem::IntersectionSide::" ++ txt "out") ++ txt " >" := by
    unfold txt; decide +kernel
  have hne : ("TraceGFM" == "TraceGFP") = false := by decide +kernel
  rw [e1, e2]
  simp only [source, List.lookup, traceType, BEq.rfl, hne, List.append_assoc, and_self]

/-- C205 for `interfaceIndicator` of a wrapped grid. -/
theorem C205_indicator (cs : List Call) (G : Text)
    (hm : NoCollision md5 (.indicator G :: cs)) (hh : NoCollision hashIt (.indicator G :: cs)) :
    (after md5 hashIt cs (.indicator G)).get "InterfaceIndicator" =
      some (txt "Dune::Fem::InterfaceIndicator< typename " ++ G ++ txt " >") := by
  unfold Module.get
  rw [after_classes _ _ hm hh]
  simp [source, indicatorType, List.lookup]

/-- C205 for `monolithicSolve`: the Jacobian is the one for the types of the schemes and of the targets. -/
theorem C205_jacobian (cs : List Call) (S I U T : Text) (iterative : Bool)
    (hm : NoCollision md5 (.jacobian S I U T iterative :: cs)) (hh : NoCollision hashIt (.jacobian S I U T iterative :: cs)) :
    (after md5 hashIt cs (.jacobian S I U T iterative)).get "Jacobian" =
      some (txt "Dune::Python::MMesh::Jacobian< " ++ S ++ txt ", " ++ I ++ txt ", " ++ U ++ txt ", " ++ T ++ txt " >") := by
  unfold Module.get
  rw [after_classes _ _ hm hh]
  simp [source, jacobianType, List.lookup]

/-- C205: the implementation behind `skeleton`, `trace` and `interfaceIndicator` is the one of the header written for them. -/
theorem C205_header (cs : List Call) (c : Call) (hm : NoCollision md5 (c :: cs)) (hh : NoCollision hashIt (c :: cs)) :
    (∀ G F, c = .skeleton G F ∨ c = .trace G F →
        (after md5 hashIt cs c).header = txt "dune/python/mmesh/pyskeletontrace.hh") ∧
      (∀ G, c = .indicator G → (after md5 hashIt cs c).header = txt "dune/python/mmesh/utility.hh") := by
  have key : (∀ S I U T b, c ≠ .jacobian S I U T b) → (after md5 hashIt cs c).header = (source c).header := by
    intro hc
    obtain ⟨c', hc', e, hn⟩ := after_name (md5 := md5) (hashIt := hashIt) cs c
    rw [e, ← (same_name (hm _ List.mem_cons_self _ hc') (hh _ List.mem_cons_self _ hc') hn.symm).2 hc]
  refine ⟨?_, ?_⟩
  · rintro G F (h | h) <;> rw [key (by simp [h]), h] <;> rfl
  · rintro G h; rw [key (by simp [h]), h]; rfl

/-- A history with all functions, the same types and other ones. A function without collisions is, for instance, the identity. -/
example : (∀ cs, NoCollision (fun s => s) cs) ∧
    (after (fun s => s) (fun s => s) [.skeleton (txt "A") (txt "B"), .trace (txt "A") (txt "B"),
        .jacobian (txt "S") (txt "I") (txt "U") (txt "T") false, .trace (txt "AB") (txt "")]
      (.trace (txt "A") (txt "B"))).get "TraceGFM" =
        some (txt "Dune::Fem::TraceGF< A, B, Dune::Fem::IntersectionSide::out >") := by
  refine ⟨fun _ _ _ _ _ h => h, ?_⟩
  decide +kernel

/-- C206 is false: two calls of `monolithicSolve` with the same types, the first one with `iterative=True` and the second one
with `iterative=False`. The second one works with the iterative implementation, for every choice of the functions that
compute names. -/
theorem C206_iterative_false : ¬ ∀ (md5 hashIt : Text → Text) (cs : List Call) (S I U T : Text) (iterative : Bool),
    NoCollision md5 (.jacobian S I U T iterative :: cs) → NoCollision hashIt (.jacobian S I U T iterative :: cs) →
    (after md5 hashIt cs (.jacobian S I U T iterative)).header =
      if iterative then txt "dune/python/mmesh/jacobian_iterative.hh" else txt "dune/python/mmesh/jacobian.hh" := by
  intro h
  have := h (fun s => s) (fun s => s) [.jacobian (txt "S") (txt "I") (txt "U") (txt "T") true] (txt "S")
    (txt "I") (txt "U") (txt "T") false
    (fun _ _ _ _ e => e) (fun _ _ _ _ e => e)
  revert this
  decide +kernel

/-- The same in the other order, whatever the types are: the earlier flag stays. -/
theorem C206_earlier_flag (md5 hashIt : Text → Text) (S I U T : Text) (b b' : Bool) :
    (after md5 hashIt [.jacobian S I U T b] (.jacobian S I U T b')).header =
      if b then txt "dune/python/mmesh/jacobian_iterative.hh" else txt "dune/python/mmesh/jacobian.hh" := by
  rw [after_eq]
  simp [moduleName, text, source, jacobianHeader]

/-- What holds of C206: the backend is the one asked for if all earlier calls in the process with the same types asked for the
same one. -/
theorem C206_iterative_partial (cs : List Call) (S I U T : Text) (iterative : Bool)
    (hm : NoCollision md5 (.jacobian S I U T iterative :: cs))
    (hc : ∀ S' I' U' T' b, Call.jacobian S' I' U' T' b ∈ cs →
      jacobianType S' I' U' T' = jacobianType S I U T → b = iterative) :
    (after md5 hashIt cs (.jacobian S I U T iterative)).header =
      if iterative then txt "dune/python/mmesh/jacobian_iterative.hh" else txt "dune/python/mmesh/jacobian.hh" := by
  rw [after_eq]
  rcases hf : cs.find? fun c' => moduleName md5 hashIt c' == moduleName md5 hashIt (.jacobian S I U T iterative) with _ | c'
  · rfl
  · have hn : moduleName md5 hashIt c' = moduleName md5 hashIt (.jacobian S I U T iterative) := by
      simpa using List.find?_some hf
    have hmem := List.mem_of_find?_eq_some hf
    cases c' with
    | jacobian S' I' U' T' b =>
      simp only [moduleName] at hn
      have := hc _ _ _ _ _ hmem (hm _ (List.mem_cons_of_mem _ hmem) _
         List.mem_cons_self (List.append_cancel_left hn))
      subst this
      rfl
    | skeleton G F => exact absurd hn (prefix_ne _ _ (by decide +kernel) (by decide +kernel) (by decide +kernel))
    | trace G F => exact absurd hn (prefix_ne _ _ (by decide +kernel) (by decide +kernel) (by decide +kernel))
    | indicator G => exact absurd hn (prefix_ne _ _ (by decide +kernel) (by decide +kernel) (by decide +kernel))

/-- A history with two pairs of types, each with its own flag. -/
example : (after (fun s => s) (fun s => s) [.jacobian (txt "S") (txt "I") (txt "U") (txt "T") true,
    .jacobian (txt "S2") (txt "I") (txt "U") (txt "T") false, .skeleton (txt "A") (txt "B")]
    (.jacobian (txt "S2") (txt "I") (txt "U") (txt "T") false)).header = txt "dune/python/mmesh/jacobian.hh" := by
  decide +kernel

end Verif.Generated
