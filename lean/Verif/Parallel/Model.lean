import Mathlib.Data.Nat.Init
import Mathlib.Data.List.Basic

/-!
# Partitions of the grid on every process: `PartitionHelper::computePartitions`

Every process holds the whole host grid and the ranks of all elements. Cells and interface elements are named by numbers;
lists give the order of the host grid, which is the same on every process.
-/

namespace Verif.Parallel

/-- The grid. `facets`: `inside` and `outside` of the intersection of each facet. An interface element has the sides
`ins`
and `out` of its intersection. `joints`: entities of codimension one in the interface for which `isInterface` holds,
with
`incidentInterfaceElements` (vertices in 2D, edges in 3D). (Models: partitionhelper.hh:203-468.) -/
structure Mesh where
  cells : List Nat
  facets : List (Nat × Option Nat)
  rank : Nat → Nat
  ielems : List Nat
  ins : Nat → Nat
  out : Nat → Option Nat
  joints : List (List Nat)

/-- `rank` of an interface element: rank of the inside (partitionhelper.hh:101-107). -/
def Mesh.irank (m : Mesh) (e : Nat) : Nat := m.rank (m.ins e)

/-- What a process stores: `info().partition` and `info().connectivity` of the cells, `interfacePartition_[0]` (-1 if there
is no entry, line 131), `interfaceConnectivity_`, `interfacePartition_[1]` and `links_`. Sets are lists. -/
structure Part where
  part : Nat → Int
  conn : Nat → List Nat
  ipart : Nat → Int
  iconn : Nat → List Nat
  jpart : List Int
  links : List Nat

/-- Change of one value. (Models: no code of its own.) -/
def set {α : Type} (f : Nat → α) (a : Nat) (b : α) : Nat → α := fun x => if x = a then b else f x

/-- `insert` of a set; `push_back` if not contained (partitionhelper.hh:160-162). -/
def add (l : List Nat) (r : Nat) : List Nat := if r ∈ l then l else l ++ [r]

/-- `addConnectivity` of a cell (partitionhelper.hh:153-163). -/
def addConn (s : Part) (c r : Nat) : Part :=
  { s with conn := set s.conn c (add (s.conn c) r), links := if s.part c = 0 then add s.links r else s.links }

/-- `addConnectivity` of an interface element (partitionhelper.hh:153-163). -/
def addIConn (s : Part) (e r : Nat) : Part :=
  { s with iconn := set s.iconn e (add (s.iconn e) r), links := if s.ipart e = 0 then add s.links r else s.links }

/-- State after the loop over the elements (partitionhelper.hh:204-217), and with the maps of the interface cleared (340).
The loop is written as a function. `interfaceConnectivity_` is not cleared by the code; entries of the interface elements are
cleared one by one when they are visited (349), other entries are not used. Line 206 runs over the end
of an array, see `C114_clear_false`; it is assumed that this only clears maps that follow in the object. -/
def start (m : Mesh) (me : Nat) : Part :=
  ⟨fun c => if m.rank c = me then 0 else -1, fun _ => [], fun _ => -1, fun _ => [], [], []⟩

/-- One facet in the loop for the ghosts (partitionhelper.hh:220-236). -/
def facetOne (m : Mesh) (s : Part) (f : Nat × Option Nat) : Part :=
  match f.2 with
  | none => s
  | some o =>
    if (s.part f.1 = 0 ∧ s.part o ≠ 0) ∨ (s.part f.1 ≠ 0 ∧ s.part o = 0) then
      let s1 : Part := { s with part := set s.part (if s.part f.1 = 0 then o else f.1) 2 }
      addConn (addConn s1 f.1 (m.rank o)) o (m.rank f.1)
    else s

/-- First half of the loop over the interface elements (partitionhelper.hh:349-360). -/
def ielemIn (m : Mesh) (me : Nat) (s : Part) (e : Nat) : Part :=
  if m.irank e = me then
    let s1 : Part := { s with iconn := set s.iconn e [], ipart := set s.ipart e 0 }
    match m.out e with
    | some o => if m.rank o ≠ me then addIConn s1 e (m.rank o) else s1
    | none => s1
  else { s with iconn := set s.iconn e [], ipart := set s.ipart e (-1) }

/-- Second half (partitionhelper.hh:364-370). -/
def ielemOut (m : Mesh) (me : Nat) (s : Part) (e : Nat) : Part :=
  match m.out e with
  | some o =>
    if m.rank o = me ∧ s.ipart e = -1 then addIConn { s with ipart := set s.ipart e 2 } e (m.rank (m.ins e)) else s
  | none => s

/-- The loop over the interface elements (partitionhelper.hh:343-371). -/
def ielemOne (m : Mesh) (me : Nat) (s : Part) (e : Nat) : Part := ielemOut m me (ielemIn m me s e) e

/-- `if (partition(c) == -1) setPartition(c, 2)` (partitionhelper.hh:396-400). -/
def cellGhost (s : Part) (c : Nat) : Part := if s.part c = -1 then { s with part := set s.part c 2 } else s

/-- One interface element at a vertex in the loop for the ghosts (partitionhelper.hh:390-401). -/
def ghostOne (m : Mesh) (s : Part) (e : Nat) : Part :=
  if s.ipart e = -1 then
    let s1 := cellGhost { s with ipart := set s.ipart e 2 } (m.ins e)
    match m.out e with
    | some o => cellGhost s1 o
    | none => s1
  else s

/-- One vertex in the loop for the ghosts (partitionhelper.hh:374-402). -/
def ghostJoint (m : Mesh) (s : Part) (j : List Nat) : Part :=
  if 0 < j.countP (fun e => s.ipart e = 0) ∧ 0 < j.countP (fun e => s.ipart e ≠ 0) then j.foldl (ghostOne m) s else s

/-- Partition of an entity by the number of incident elements (partitionhelper.hh:288-299, 317-328, 422-441, 456-467). -/
def classify (count interior ghost : Nat) : Int :=
  if interior = count then 0 else if 0 < interior ∧ 0 < ghost then 1 else if 0 < ghost then 2 else -1

/-- The ranks at a vertex added to one interface element (partitionhelper.hh:428-430). The set of ranks is run through in
the order of the elements, and a rank may come twice, which has no effect. -/
def linkOne (m : Mesh) (ranks : List Nat) (s : Part) (e : Nat) : Part :=
  ranks.foldl (fun (s : Part) (r : Nat) => if r ≠ m.irank e then addIConn s e r else s) s

/-- One vertex in the loop for the facets (partitionhelper.hh:405-442). -/
def borderJoint (m : Mesh) (s : Part) (j : List Nat) : Part :=
  let p := classify j.length (j.countP fun e => s.ipart e = 0) (j.countP fun e => s.ipart e = 2)
  let s1 := { s with jpart := s.jpart ++ [p] }
  if p = 1 then j.foldl (linkOne m (j.map m.irank)) s1 else s1

/-- State after the facets (partitionhelper.hh:220-236). -/
def bulk (m : Mesh) (me : Nat) : Part := m.facets.foldl (facetOne m) (start m me)

/-- State after the loop over the interface elements. (Models: partitionhelper.hh:343-369.) -/
def iface (m : Mesh) (me : Nat) : Part := m.ielems.foldl (ielemOne m me) (bulk m me)

/-- State after the loop for the ghosts at interface vertices. (Models: partitionhelper.hh:372-399.) -/
def ghosts (m : Mesh) (me : Nat) : Part := m.joints.foldl (ghostJoint m) (iface m me)

/-- `computePartitions` with `computeInterfacePartitions` (partitionhelper.hh:203-333, 337-468); facets, vertices (and edges
in 3D) follow. -/
def compute (m : Mesh) (me : Nat) : Part := m.joints.foldl (borderJoint m) (ghosts m me)

/-- Partition of a facet (partitionhelper.hh:243-276). -/
def facetPart (s : Part) (f : Nat × Option Nat) : Int :=
  match f.2 with
  | some o =>
    if s.part f.1 = 0 ∧ s.part o = 0 then 0
    else if (s.part f.1 = 0 ∧ s.part o = 2) ∨ (s.part f.1 = 2 ∧ s.part o = 0) then 1
    else if s.part f.1 = 2 ∨ s.part o = 2 then 2 else -1
  | none => if s.part f.1 = 0 then 0 else if s.part f.1 = 2 then 2 else -1

/-- Partition of a vertex, or of an edge in 3D, from the incident elements (partitionhelper.hh:280-332). -/
def vertexPart (s : Part) (star : List Nat) : Int :=
  classify star.length (star.countP fun c => s.part c = 0) (star.countP fun c => s.part c = 2)

/-- Indices of `partition_` that are cleared (partitionhelper.hh:206), and the length of this array (504). -/
def cleared (dim : Nat) : List Nat × Nat := (List.range (dim + 1), dim - 1)

/-! ## Communication -/

/-- The elements of an iteration for which data is packed for, or unpacked from, the process `q`: partition type as asked
for, connectivity not empty, and the test of the link (communication.hh:57-66, 72-82, 126-135, 141-150, 190-191, 235-236).
Both sides make the same test. -/
def select (elems : List Nat) (part : Nat → Int) (conn : Nat → List Nat) (rank : Nat → Nat) (type : Int) (q : Nat) : List Nat :=
  elems.filter fun c => decide (part c = type ∧ conn c ≠ [] ∧ (q ∈ conn c ∨ q = rank c))

/-- Elements of the bulk grid. (Models: communication.hh:57-66, 126-135.) -/
def Mesh.selectCells (m : Mesh) (me : Nat) (type : Int) (q : Nat) : List Nat :=
  select m.cells (compute m me).part (compute m me).conn m.rank type q

/-- Elements of the interface grid. (Models: communication.hh:57-66, 126-135.) -/
def Mesh.selectIElems (m : Mesh) (me : Nat) (type : Int) (q : Nat) : List Nat :=
  select m.ielems (compute m me).ipart (compute m me).iconn m.irank type q

/-- A message: for every element, every sub-entity for which there is data, the size and the data
(communication.hh:186-205). `items` lists the sub-entities of an element by codimension, `gather` the data. -/
def pack {Item : Type} (items : Nat → List Item) (gather : Item → List Nat) (elems : List Nat) : List Nat :=
  elems.flatMap fun c => (items c).flatMap fun i => (gather i).length :: gather i

/-- Reading one size and the data (communication.hh:238-243); `none`: more is read than the message holds. -/
def readOne (buf : List Nat) : Option (List Nat × List Nat) :=
  match buf with
  | [] => none
  | n :: rest => if n ≤ rest.length then some (rest.take n, rest.drop n) else none

/-- Reading of a list of items: what is scattered where, and the rest of the message. (Models:
communication.hh:216-246.) -/
def readItems {Item : Type} : List Item → List Nat → Option (List (Item × List Nat) × List Nat)
  | [], buf => some ([], buf)
  | i :: is, buf =>
    match readOne buf with
    | none => none
    | some (d, rest) =>
      match readItems is rest with
      | none => none
      | some (ds, rest') => some ((i, d) :: ds, rest')

/-- Unpacking (communication.hh:216-246). -/
def unpack {Item : Type} (items : Nat → List Item) (elems : List Nat) (buf : List Nat) :
    Option (List (Item × List Nat) × List Nat) := readItems (elems.flatMap items) buf

end Verif.Parallel
