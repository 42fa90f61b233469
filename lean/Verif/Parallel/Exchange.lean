import Verif.Parallel.Props
import Verif.Parallel.Network

/-!
# C36 and C37: what is scattered, for all grids, all data and all schedules
-/

namespace Verif.Parallel

open Network

/-- C36, everything together: all processes make `R` forward communications of the bulk grid; `gather p k` is the data of
process `p` in its call `k`. In any schedule, whatever process `q` has received from process `p` for its call `k` unpacks to
the data of call `k` of `p`, for each element of `p` next to an element of `q`, with nothing left over. -/
theorem C36_exchange {m : Mesh} (hw : m.WF) {Item : Type} (items : Nat → List Item) (gather : Nat → Nat → Item → List Nat)
    {R : Nat} {s : State (List Nat)}
    (h : Reachable (fun p => (compute m p).links) R (fun p q k => pack items (gather p k) (m.selectCells p 0 q)) s)
    {p q : Nat} (hq : q ∈ (compute m p).links) {k : Nat} {buf : List Nat} (hk : (s.log q p)[k]? = some buf) :
    unpack items (m.selectCells q 2 p) buf =
      some (((m.selectCells q 2 p).flatMap items).map fun i => (i, gather p k i), []) := by
  have h1 := (C36_schedule (fun a b hab => (C35_links hw a b).1 hab) h hq).1
  have hlt : k < (s.log q p).length := (List.getElem?_eq_some_iff.1 hk).1
  rw [h1, List.getElem?_map, List.getElem?_range hlt] at hk
  simp only [Option.map_some, Option.some.injEq] at hk
  rw [← hk]
  have hpq : p ≠ q := fun hpq => C35_links_proper hw p (by rw [← hpq] at hq; exact hq)
  exact C36_forward hw hpq items (gather p k)

/-- C37, everything together, where at most two processes meet at each interface vertex. -/
theorem C37_exchange {m : Mesh} (hw : m.WF) (h2 : m.TwoRanks) {Item : Type} (items : Nat → List Item)
    (gather : Nat → Nat → Item → List Nat) {R : Nat} {s : State (List Nat)}
    (h : Reachable (fun p => (compute m p).links) R (fun p q k => pack items (gather p k) (m.selectIElems p 0 q)) s)
    {p q : Nat} (hq : q ∈ (compute m p).links) {k : Nat} {buf : List Nat} (hk : (s.log q p)[k]? = some buf) :
    unpack items (m.selectIElems q 2 p) buf =
      some (((m.selectIElems q 2 p).flatMap items).map fun i => (i, gather p k i), []) := by
  have h1 := (C36_schedule (fun a b hab => (C35_links hw a b).1 hab) h hq).1
  have hlt : k < (s.log q p).length := (List.getElem?_eq_some_iff.1 hk).1
  rw [h1, List.getElem?_map, List.getElem?_range hlt] at hk
  simp only [Option.map_some, Option.some.injEq] at hk
  rw [← hk]
  have hpq : p ≠ q := fun hpq => C35_links_proper hw p (by rw [← hpq] at hq; exact hq)
  exact C37_forward hw h2 hpq items (gather p k)

end Verif.Parallel
