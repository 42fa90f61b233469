import Verif.BoundaryIds.Model
import Verif.Factory.SegProps

/-!
# C85: boundary ids of a DGF file
-/

namespace Verif.BoundaryIds

open Verif RefElem Segments

/-! ## Specification -/

/-- The faces of the file name different facets. -/
def Distinct (faces : List (List Nat × Nat)) : Prop := faces.Pairwise fun a b => ¬ a.1.Perm b.1

/-- The faces use vertices of the file. -/
def InRange (n : Nat) (faces : List (List Nat × Nat)) : Prop := ∀ f ∈ faces, ∀ v ∈ f.1, v < n

/-! ## Proofs -/

/-- The state after some faces. -/
structure Done (n : Nat) (done : List (List Nat × Nat)) (f : Factory) : Prop where
  num : f.segs.numVertices = n
  segs : f.segs.boundarySegments = done.zipIdx.map fun x => (sortIds x.1.1, x.2)
  count : f.segs.countBoundarySegments = done.length
  ifc : f.segs.interfaceSegments = []
  ids : f.boundaryIds = done.zipIdx.map fun x => (x.2, x.1.2)

theorem zipIdx_snoc {α : Type} (l : List α) (a : α) : (l ++ [a]).zipIdx = l.zipIdx ++ [(a, l.length)] := by
  rw [List.zipIdx_append]; simp

theorem dgfFace_done {n : Nat} {done : List (List Nat × Nat)} {f : Factory} (h : Done n done f) (face : List Nat × Nat)
    (hr : ∀ v ∈ face.1, v < n) (hd : ∀ g ∈ done, ¬ g.1.Perm face.1) : ∃ f', dgfFace f face = some f' ∧ Done n (done ++ [face]) f' := by
  have h1 : sortedIds f.segs (sortIds face.1) = some (sortIds face.1) := by
    unfold sortedIds
    rw [if_pos (fun v hv => by rw [h.num]; exact hr v ((sortIds_perm face.1).mem_iff.1 hv)), sortIds_idem]
  have h2 : Map.find f.segs.boundarySegments (sortIds face.1) = none := by
    rw [Map.find_none_iff, h.segs, List.map_map]
    intro hm
    obtain ⟨⟨g, i⟩, hg, he⟩ := List.mem_map.1 hm
    have hg' := List.fst_mem_of_mem_zipIdx hg
    exact hd g hg' ((sort_eq_iff _ _).1 he)
  have h3 : Map.insert f.segs.boundarySegments (sortIds face.1) f.segs.countBoundarySegments =
      (done ++ [face]).zipIdx.map fun x => (sortIds x.1.1, x.2) := by
    unfold Map.insert
    rw [h2, zipIdx_snoc, List.map_append, h.segs, h.count]; rfl
  have h4 : step f.segs (.insertBoundarySegment (sortIds face.1)) = .ok { f.segs with
        boundarySegments := (done ++ [face]).zipIdx.map fun x => (sortIds x.1.1, x.2)
        countBoundarySegments := f.segs.countBoundarySegments + 1 } := by
    simp only [step, h1, h2, h3]
  refine ⟨_, by unfold dgfFace; rw [h4], ?_⟩
  constructor
  · exact h.num
  · rfl
  · simp [addBoundaryId, h.count]
  · exact h.ifc
  · have hl : ((done ++ [face]).zipIdx.map fun x => (sortIds x.1.1, x.2)).length - 1 = done.length := by simp
    simp only [addBoundaryId, hl]
    unfold Map.insert
    have : Map.find f.boundaryIds done.length = none := by
      rw [Map.find_none_iff, h.ids, List.map_map]
      intro hm
      obtain ⟨⟨g, i⟩, hg, he⟩ := List.mem_map.1 hm
      have := List.snd_lt_of_mem_zipIdx hg
      simp only [Function.comp] at he
      omega
    rw [this, zipIdx_snoc, List.map_append, h.ids]; rfl

theorem dgfFaces_done {n : Nat} (faces : List (List Nat × Nat)) : ∀ (done : List (List Nat × Nat)) (f : Factory), Done n done f → InRange n faces →
    Distinct (done ++ faces) → ∃ f', dgfFaces f faces = some f' ∧ Done n (done ++ faces) f' := by
  induction faces with
  | nil => intro done f h _ _; exact ⟨f, rfl, by simpa using h⟩
  | cons face faces ih =>
    intro done f h hr hd
    obtain ⟨f1, e1, h1⟩ := dgfFace_done h face (hr face (by simp)) fun g hg => (List.pairwise_append.1 hd).2.2 g hg face (by simp)
    obtain ⟨f2, e2, h2⟩ := ih (done ++ [face]) f1 h1 (fun g hg => hr g (by simp [hg])) (by simpa using hd)
    exact ⟨f2, by unfold dgfFaces; rw [e1]; exact e2, by simpa using h2⟩

theorem dgf_ok (n : Nat) (faces : List (List Nat × Nat)) (hr : InRange n faces) (hd : Distinct faces) :
    ∃ f, dgfFaces (dgfVertices n) faces = some f ∧ Done n faces f := by
  obtain ⟨f, h1, h2⟩ := dgfFaces_done faces [] (dgfVertices n) (Done.mk (n := n) rfl rfl rfl rfl rfl) hr (by simpa using hd)
  exact ⟨f, h1, by simpa using h2⟩

theorem serial_segments {n : Nat} {faces : List (List Nat × Nat)} {f : Factory} (h : Done n faces f) (bf : List Key) :
    (serialGrid f bf).localBoundarySegments = faces.zipIdx.map fun x => (sortIds x.1.1, x.2) := by
  have : removeBoundaryFromInterface f.segs bf = [] := by
    unfold removeBoundaryFromInterface
    rw [h.ifc]
    induction bf with
    | nil => rfl
    | cons b bf ih =>
      rw [List.foldl_cons]
      cases Map.find f.segs.boundarySegments b with
      | none => exact ih
      | some i => exact ih
  simp only [serialGrid, createGrid, this, List.foldl_nil, h.segs]

theorem keys_nodup {faces : List (List Nat × Nat)} (hd : Distinct faces) : ((faces.zipIdx.map fun x => (sortIds x.1.1, x.2)).map Prod.fst).Nodup := by
  have e : (faces.zipIdx.map fun x => (sortIds x.1.1, x.2)).map Prod.fst = faces.map fun x => sortIds x.1 := by
    rw [List.map_map]
    have : (Prod.fst ∘ fun x : (List Nat × Nat) × Nat => (sortIds x.1.1, x.2)) = (fun x : List Nat × Nat => sortIds x.1) ∘ Prod.fst := rfl
    rw [this, ← List.map_map, List.zipIdx_map_fst]
  rw [e]
  exact List.pairwise_map.2 (hd.imp fun {a b} hab h => hab ((sort_eq_iff _ _).1 h))

theorem ids_find (faces : List (List Nat × Nat)) (i : Nat) : Map.find (faces.zipIdx.map fun x => (x.2, x.1.2)) i = (faces[i]?).map Prod.snd := by
  have hk : (faces.zipIdx.map fun x => (x.2, x.1.2)).map Prod.fst = List.range faces.length := by
    rw [List.map_map]
    have : (Prod.fst ∘ fun x : (List Nat × Nat) × Nat => (x.2, x.1.2)) = Prod.snd := rfl
    rw [this, List.zipIdx_map_snd, List.range_eq_range']
  cases h : faces[i]? with
  | none =>
    rw [Option.map_none, Map.find_none_iff, hk, List.mem_range]
    have := List.getElem?_eq_none_iff.1 h
    omega
  | some g =>
    rw [Option.map_some]
    refine Map.find_of_mem (by rw [hk]; exact List.nodup_range) ?_
    exact List.mem_map.2 ⟨(g, i), List.mem_zipIdx_iff_getElem?.2 h, rfl⟩

/-! ## C85 -/

/-- C85: a DGF file whose faces are different facets of its vertices is read without exception; then, with one process, the intersections with the
vertices of the faces, in any order, have the boundary ids of the file. -/
theorem C85_dgf (n : Nat) (faces : List (List Nat × Nat)) (hr : InRange n faces) (hd : Distinct faces) :
    ∃ f, dgfFaces (dgfVertices n) faces = some f ∧ ∀ (bf : List Key) (vs : List Nat) (id : Nat) (ws : List Nat), (vs, id) ∈ faces → ws.Perm vs →
      boundaryId (serialGrid f bf) ws = id := by
  obtain ⟨f, h1, h2⟩ := dgf_ok n faces hr hd
  refine ⟨f, h1, fun bf vs id ws hm hp => ?_⟩
  obtain ⟨i, hi⟩ := List.getElem?_of_mem hm
  have e1 : boundarySegmentIndex (serialGrid f bf) ws = i := by
    unfold boundarySegmentIndex
    rw [serial_segments h2, (sort_eq_iff ws vs).2 hp]
    rw [Map.find_of_mem (keys_nodup hd) (List.mem_map.2 ⟨((vs, id), i), List.mem_zipIdx_iff_getElem?.2 hi, rfl⟩)]
  unfold boundaryId
  rw [e1, show (serialGrid f bf).boundaryIds = f.boundaryIds from rfl, h2.ids, ids_find, hi]
  rfl

/-- C85: a face that is named twice makes the reader throw. -/
theorem C85_duplicate (n : Nat) (faces : List (List Nat × Nat)) (vs ws : List Nat) (i j : Nat) (hr : InRange n (faces ++ [(vs, i)]))
    (hd : Distinct faces) (hw : (ws, j) ∈ faces) (hp : ws.Perm vs) : dgfFaces (dgfVertices n) (faces ++ [(vs, i)]) = none := by
  obtain ⟨f, h1, h2⟩ := dgf_ok n faces (fun g hg => hr g (by simp [hg])) hd
  have app : ∀ (l m : List (List Nat × Nat)) (f : Factory), dgfFaces f (l ++ m) = (dgfFaces f l).bind fun f' => dgfFaces f' m := by
    intro l m
    induction l with
    | nil => intro f; rfl
    | cons a l ih =>
      intro f
      simp only [List.cons_append, dgfFaces]
      cases dgfFace f a with
      | none => rfl
      | some f1 => exact ih f1
  rw [app, h1, Option.bind_some]
  have e1 : sortedIds f.segs (sortIds vs) = some (sortIds vs) := by
    unfold sortedIds
    rw [if_pos (fun v hv => by rw [h2.num]; exact hr (vs, i) (by simp) v ((sortIds_perm vs).mem_iff.1 hv)), sortIds_idem]
  obtain ⟨k, hk⟩ := List.getElem?_of_mem hw
  have e2 : Map.find f.segs.boundarySegments (sortIds vs) = some k := by
    rw [h2.segs, ← (sort_eq_iff ws vs).2 hp]
    exact Map.find_of_mem (keys_nodup hd) (List.mem_map.2 ⟨((ws, j), k), List.mem_zipIdx_iff_getElem?.2 hk, rfl⟩)
  have e3 : dgfFace f (vs, i) = none := by
    unfold dgfFace
    simp only [step, e1, e2]
  unfold dgfFaces
  rw [e3]; rfl

/-- C85, outright: a boundary facet that the file does not name has the boundary id of the first face of the file, or 0 if there is no face. Here the
documentation of the code ("default") suggests 0. -/
theorem C85_unlisted (n : Nat) (faces : List (List Nat × Nat)) (hr : InRange n faces) (hd : Distinct faces) :
    ∃ f, dgfFaces (dgfVertices n) faces = some f ∧ ∀ (bf : List Key) (ws : List Nat), (∀ g ∈ faces, ¬ ws.Perm g.1) →
      boundaryId (serialGrid f bf) ws = match faces with | [] => 0 | g :: _ => g.2 := by
  obtain ⟨f, h1, h2⟩ := dgf_ok n faces hr hd
  refine ⟨f, h1, fun bf ws hw => ?_⟩
  have e1 : boundarySegmentIndex (serialGrid f bf) ws = 0 := by
    unfold boundarySegmentIndex
    have : Map.find (serialGrid f bf).localBoundarySegments (sortIds ws) = none := by
      rw [serial_segments h2, Map.find_none_iff, List.map_map]
      intro hm
      obtain ⟨⟨g, i⟩, hg, he⟩ := List.mem_map.1 hm
      exact hw g (List.fst_mem_of_mem_zipIdx hg) ((sort_eq_iff _ _).1 he).symm
    rw [this]
  unfold boundaryId
  rw [e1, show (serialGrid f bf).boundaryIds = f.boundaryIds from rfl, h2.ids, ids_find]
  cases faces with
  | nil => rfl
  | cons g t => rfl

/-- The boundary of a square 0,1,2,3 whose sides have the ids 1,2,3,4. -/
def square : List (List Nat × Nat) := [([0, 1], 1), ([1, 2], 2), ([2, 3], 3), ([3, 0], 4)]

/-- The hypotheses hold for the square. -/
example : InRange 4 square ∧ Distinct square := by
  refine ⟨by unfold InRange square; decide, ?_⟩
  unfold Distinct square
  decide

/-- C138 fails after a refinement: the side 2–3 with id 3 is split by the new vertex 4; its halves have the id 1 of the first face. -/
theorem C138_refined_false : ∃ f, dgfFaces (dgfVertices 4) square = some f ∧ boundaryId (serialGrid f []) [2, 3] = 3 ∧
    boundaryId (serialGrid f []) [2, 4] = 1 ∧ boundaryId (serialGrid f []) [4, 3] = 1 := ⟨_, rfl, by decide, by decide, by decide⟩

/-- C138 fails with several processes: the boundary facets of a process are numbered again, but the ids still belong to the numbers in the file. A
process that has only the sides 2–3 and 3–0 sees the ids 1 and 2 instead of 3 and 4. -/
theorem C138_parallel_false : ∃ f, dgfFaces (dgfVertices 4) square = some f ∧ boundaryId (parallelGrid f [[2, 3], [0, 3]]) [2, 3] = 1 ∧
    boundaryId (parallelGrid f [[2, 3], [0, 3]]) [3, 0] = 2 := ⟨_, rfl, by decide, by decide⟩

/-- C138 with several processes: the ids are right on a process whose boundary facets are the first faces of the file in the order of the file. -/
theorem C138_parallel_partial (n : Nat) (faces more : List (List Nat × Nat)) (hr : InRange n (faces ++ more)) (hd : Distinct (faces ++ more)) :
    ∃ f, dgfFaces (dgfVertices n) (faces ++ more) = some f ∧ ∀ (vs : List Nat) (id : Nat) (ws : List Nat), (vs, id) ∈ faces → ws.Perm vs →
      boundaryId (parallelGrid f (faces.map fun g => sortIds g.1)) ws = id := by
  obtain ⟨f, h1, h2⟩ := dgf_ok n _ hr hd
  refine ⟨f, h1, fun vs id ws hm hp => ?_⟩
  have hdf : Distinct faces := (List.pairwise_append.1 hd).1
  have key : ∀ (l done : List (List Nat × Nat)), Distinct (done ++ l) →
      ((l.map fun g => sortIds g.1).zipIdx done.length).foldl (fun m f => Map.insert m f.1 f.2) (done.zipIdx.map fun x => (sortIds x.1.1, x.2)) =
        (done ++ l).zipIdx.map fun x => (sortIds x.1.1, x.2) := by
    intro l
    induction l with
    | nil => intro done _; simp
    | cons a l ih =>
      intro done hdl
      rw [List.map_cons, List.zipIdx_cons, List.foldl_cons]
      have hn : Map.find (done.zipIdx.map fun x => (sortIds x.1.1, x.2)) (sortIds a.1) = none := by
        rw [Map.find_none_iff, List.map_map]
        intro hmm
        obtain ⟨⟨g, i⟩, hg, he⟩ := List.mem_map.1 hmm
        exact (List.pairwise_append.1 hdl).2.2 g (List.fst_mem_of_mem_zipIdx hg) a (by simp) ((sort_eq_iff _ _).1 he)
      have hi : Map.insert (done.zipIdx.map fun x => (sortIds x.1.1, x.2)) (sortIds a.1) done.length = (done ++ [a]).zipIdx.map fun x => (sortIds x.1.1, x.2) := by
        unfold Map.insert
        rw [hn, zipIdx_snoc, List.map_append]; rfl
      simp only [hi]
      have := ih (done ++ [a]) (by simpa using hdl)
      simpa using this
  have hloc : numberLocal (faces.map fun g => sortIds g.1) = faces.zipIdx.map fun x => (sortIds x.1.1, x.2) := by
    have := key faces [] (by simpa using hdf)
    simpa [numberLocal] using this
  obtain ⟨i, hi⟩ := List.getElem?_of_mem hm
  have e1 : boundarySegmentIndex (parallelGrid f (faces.map fun g => sortIds g.1)) ws = i := by
    unfold boundarySegmentIndex
    rw [show (parallelGrid f (faces.map fun g => sortIds g.1)).localBoundarySegments = numberLocal (faces.map fun g => sortIds g.1) from rfl, hloc,
      (sort_eq_iff ws vs).2 hp, Map.find_of_mem (keys_nodup hdf) (List.mem_map.2 ⟨((vs, id), i), List.mem_zipIdx_iff_getElem?.2 hi, rfl⟩)]
  unfold boundaryId
  rw [e1, show (parallelGrid f (faces.map fun g => sortIds g.1)).boundaryIds = f.boundaryIds from rfl, h2.ids, ids_find]
  have : (faces ++ more)[i]? = some (vs, id) := by
    have hlt : i < faces.length := (List.getElem?_eq_some_iff.1 hi).1
    rw [List.getElem?_append_left hlt, hi]
  rw [this]
  rfl

end Verif.BoundaryIds
