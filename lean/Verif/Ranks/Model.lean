import Mathlib.Data.Nat.Init

/-!
# Distribution of the elements to ranks: `PartitionHelper::distribute`, `setRanks`

Elements are named by their position in the iteration over the finite cells of the host grid, iterators by the position
they point to; `n` is the number of finite cells and the end position. `N` is the number by which ranks are computed.
-/

namespace Verif.Ranks

/-- Values of `std::size_t`. (Models: no code of its own.) -/
def word : Nat := 2 ^ 64

/-- The number `N` in `setRanks` (partitionhelper.hh:179-183): in 2D CGAL's `number_of_faces` counts finite faces only, in 3D its
`number_of_cells` counts all cells, also the `inf` infinite ones. -/
def divisor (dim n inf : Nat) : Nat := if dim = 2 then n else n + inf

/-- `getRank(i) = i * size / N` in `std::size_t` (partitionhelper.hh:187). `size` is a non-negative `int`. -/
def getRank (size N i : Nat) : Nat := (i * size % word) / N

/-- `i - 1` in `std::size_t`. (Models: partitionhelper.hh:191, 194.) -/
def pred (i : Nat) : Nat := (i + word - 1) % word

/-- An `int` converted to `std::size_t` for the comparison with `getRank` (partitionhelper.hh:191, 194). -/
def toSize (r : Int) : Nat := (r % (word : Int)).toNat

/-- What `setRanks` stores: `leafBegin_`, `leafEnd_` and the rank of every element. (Models:
partitionhelper.hh:175-200.) -/
structure State where
  beginIt : Nat
  endIt : Nat
  rank : List Nat

/-- One turn of the loop in `setRanks` (partitionhelper.hh:186-200) for the element `i` on process `me`. The conversion of
the rank to `int` is not modelled; ranks are below `size`. -/
def turn (size N me : Nat) (s : State) (i : Nat) : State :=
  { beginIt := if getRank size N i = me ∧ getRank size N (pred i) = toSize ((me : Int) - 1) then i else s.beginIt
    endIt := if getRank size N i = me + 1 ∧ getRank size N (pred i) = me then i else s.endIt
    rank := s.rank ++ [getRank size N i] }

/-- `distribute` (partitionhelper.hh:23-38) without `computePartitions`: iterators are set to the whole range first; with
one process nothing else happens, and every element counts as interior (`partition` returns 0, line 118). -/
def distribute (size N n me : Nat) : State :=
  if size = 1 then ⟨0, n, []⟩ else (List.range n).foldl (turn size N me) ⟨0, n, []⟩

/-- The elements visited by an `Interior_Partition` iterator (leafiterator.hh:42-84): from `leafBegin_` to `leafEnd_`,
skipping what is not interior. `none`: the begin is behind the end, the iterator runs out of the container. -/
def interior (size N n me : Nat) : Option (List Nat) :=
  let s := distribute size N n me
  if s.beginIt ≤ s.endIt then
    some ((List.range' s.beginIt (s.endIt - s.beginIt)).filter fun i => decide (size = 1 ∨ s.rank[i]? = some me))
  else none

end Verif.Ranks
