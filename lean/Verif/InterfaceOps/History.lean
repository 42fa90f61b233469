import Verif.InterfaceOps.Props

/-!
# C30, C54: what holds after any history of operations
-/

namespace Verif.InterfaceOps

open Verif RefElem

/-! ## Invariant -/

/-- What holds of a pending request. -/
def ReqOk (s : State) : Req → Prop
  | .edge a b true => s.flag a = true ∧ s.flag b = true ∧ a < s.next ∧ b < s.next
  | .edge a b false => Map.find s.segs (key a b) = none ∧ a < s.next ∧ b < s.next
  | .cell => True
  | .extend v0 => s.flag v0 = true ∧ v0 < s.next
  | .cross a b c => s.flag a = true ∧ s.flag b = true ∧ s.flag c = true ∧ a < s.next ∧ b < s.next ∧ c < s.next

theorem vertex_lt {s : State} (h : Ok s) {c : Nat} (hc : IsVertex s.edges c) : c < s.next := by
  obtain ⟨e, he, hm⟩ := hc
  obtain ⟨a, b, -, hk, ha, hb⟩ := h.edges e he
  rw [hk, mem_key] at hm
  omega

theorem edge_lt {s : State} (h : Ok s) {a b : Nat} (he : key a b ∈ s.edges) : a ≠ b ∧ a < s.next ∧ b < s.next := by
  obtain ⟨x, y, hxy, hk, hx, hy⟩ := h.edges _ he
  have := key_eq_iff.1 hk
  omega

theorem split_edges {s : State} (h : Ok s) {a b v : Nat} {E' : List (List Nat)} (hv : s.next ≤ v)
    (hs : SplitEdge s.edges a b v E') : ∀ e ∈ E', ∃ x y, x ≠ y ∧ e = key x y ∧ x < v + 1 ∧ y < v + 1 := by
  obtain ⟨hab, opp, hopp, he'⟩ := hs
  obtain ⟨-, ha, hb⟩ := edge_lt h hab
  intro e he
  rcases (he' e).1 he with ⟨h1, -⟩ | rfl | rfl | ⟨c, hc, rfl⟩
  · obtain ⟨x, y, hxy, hk, hx, hy⟩ := h.edges e h1
    exact ⟨x, y, hxy, hk, by omega, by omega⟩
  · exact ⟨v, a, by omega, rfl, by omega, by omega⟩
  · exact ⟨v, b, by omega, rfl, by omega, by omega⟩
  · have := vertex_lt h (hopp c hc)
    exact ⟨v, c, by omega, rfl, by omega, by omega⟩

theorem add_edges {s : State} (h : Ok s) {v : Nat} {E' : List (List Nat)} (hv : s.next ≤ v)
    (hs : AddVertex s.edges v E') : ∀ e ∈ E', ∃ x y, x ≠ y ∧ e = key x y ∧ x < v + 1 ∧ y < v + 1 := by
  obtain ⟨opp, hopp, he'⟩ := hs
  intro e he
  rcases (he' e).1 he with h1 | ⟨c, hc, rfl⟩
  · obtain ⟨x, y, hxy, hk, hx, hy⟩ := h.edges e h1
    exact ⟨x, y, hxy, hk, by omega, by omega⟩
  · have := vertex_lt h (hopp c hc)
    exact ⟨v, c, by omega, rfl, by omega, by omega⟩

theorem remove_edges {s : State} (h : Ok s) {v : Nat} {E' : List (List Nat)} (hs : RemoveVertex s.edges v E') :
    ∀ e ∈ E', ∃ x y, x ≠ y ∧ e = key x y ∧ x < s.next ∧ y < s.next := by
  intro e he
  rcases (hs.2 e he).2 with h1 | ⟨a, b, hab, hk, ha, hb⟩
  · exact h.edges e h1
  · exact ⟨a, b, hab, hk, vertex_lt h ha, vertex_lt h hb⟩

/-- A state whose segments are given by their keys. -/
theorem ok_of {s : State} (hnd : (s.segs.map Prod.fst).Nodup)
    (hp : ∀ k m, Map.find s.segs k = some m → ∃ a b, a ≠ b ∧ k = key a b ∧ s.flag a = true ∧ s.flag b = true ∧ k ∈ s.edges)
    (he : ∀ e ∈ s.edges, ∃ a b, a ≠ b ∧ e = key a b ∧ a < s.next ∧ b < s.next) : Ok s := by
  refine ⟨?_, hnd, he⟩
  intro e hemem
  obtain ⟨a, b, h1, h2, h3, h4, h5⟩ := hp e.1 e.2 (Map.find_of_mem hnd hemem)
  exact ⟨a, b, h1, h2, h3, h4, h2 ▸ h5⟩

theorem Ok.pair' {s : State} (h : Ok s) {k : List Nat} {m : Nat} (hf : Map.find s.segs k = some m) :
    ∃ a b, a ≠ b ∧ k = key a b ∧ s.flag a = true ∧ s.flag b = true ∧ k ∈ s.edges := by
  obtain ⟨a, b, h1, h2, h3, h4, h5⟩ := h.pair _ (Map.mem_of_find hf)
  exact ⟨a, b, h1, h2, h3, h4, by rw [show k = key a b from h2]; exact h5⟩

theorem nodup_insertInInterface {s s' : State} {a b id : Nat} (h : (s.segs.map Prod.fst).Nodup)
    (hs : insertInInterface 2 s [a, b] id = some s') : (s'.segs.map Prod.fst).Nodup := by
  unfold insertInInterface at hs
  obtain ⟨new, -, rfl⟩ := Option.map_eq_some_iff.1 hs
  simp only
  have : ∀ (l : List (List Nat)) (m : List (List Nat × Nat)) (x : Nat), (m.map Prod.fst).Nodup →
      ((l.foldl (fun (m : List (List Nat × Nat)) (k : List Nat) => Map.insert m k x) m).map Prod.fst).Nodup := by
    intro l
    induction l with
    | nil => intro m x hm; exact hm
    | cons k l ih => intro m x hm; exact ih _ _ (Map.nodup_insert hm k x)
  exact this _ _ _ (Map.nodup_erase h _)

/-- Splitting an interface edge in the grid. -/
theorem ok_split {s s' : State} (h : Ok s) {a b v : Nat} {E' : List (List Nat)} (hv : s.next ≤ v)
    (hs : SplitEdge s.edges a b v E') (hfa : s.flag a = true) (hfb : s.flag b = true)
    (hi : insertInInterface 2 s [a, b] v = some s') :
    Ok { s' with edges := E', next := v + 1 } ∧ (∀ x, s.flag x = true → s'.flag x = true) ∧ s'.flag v = true ∧
      ∀ k, v ∉ k → Map.find s.segs k = none → Map.find s'.segs k = none := by
  obtain ⟨s'', h1, h2, h3, h4, h5⟩ := insertInInterface_spec s a b v (h.fresh hv)
  rw [h1] at hi
  cases hi
  obtain ⟨hab, ha, hb⟩ := edge_lt h hs.1
  have hmono : ∀ x, s.flag x = true → s'.flag x = true := fun x hx => (h4 x).2 (Or.inl hx)
  have hnew : s'.flag v = true := (h4 v).2 (Or.inr rfl)
  have hE := split_edges h hv hs
  obtain ⟨-, opp, -, he'⟩ := hs
  have hnd := nodup_insertInInterface h.nodup h1
  refine ⟨ok_of hnd ?_ hE, hmono, hnew, ?_⟩
  · intro k m hk
    simp only at hk ⊢
    rw [h5] at hk
    split at hk
    · rename_i hor
      rcases hor with rfl | rfl
      · exact ⟨v, a, by omega, rfl, hnew, hmono a hfa, (he' _).2 (Or.inr (Or.inl rfl))⟩
      · exact ⟨v, b, by omega, rfl, hnew, hmono b hfb, (he' _).2 (Or.inr (Or.inr (Or.inl rfl)))⟩
    · split at hk
      · simp at hk
      · rename_i hne
        obtain ⟨x, y, hxy, hkk, hx, hy, hin⟩ := h.pair' hk
        exact ⟨x, y, hxy, hkk, hmono x hx, hmono y hy, (he' _).2 (Or.inl ⟨hin, hne⟩)⟩
  · intro k hvk hnone
    rw [h5, if_neg]
    · split
      · rfl
      · exact hnone
    · rintro (rfl | rfl)
      · exact hvk (mem_key.2 (Or.inl rfl))
      · exact hvk (mem_key.2 (Or.inl rfl))

/-- Connecting a new vertex with an interface vertex. -/
theorem ok_connect {s : State} (h : Ok s) {v c : Nat} (hfc : s.flag c = true) (hne : v ≠ c) (he : key v c ∈ s.edges) :
    Ok (connect s v c) ∧ (∀ x, s.flag x = true → (connect s v c).flag x = true) ∧
      ∀ k, v ∉ k → Map.find s.segs k = none → Map.find (connect s v c).segs k = none := by
  have hmono : ∀ x, s.flag x = true → (connect s v c).flag x = true := by
    intro x hx
    simp [connect, hx]
  have hv : (connect s v c).flag v = true := by simp [connect]
  have hne' : ∀ k, k ≠ key v c → Map.find (connect s v c).segs k = Map.find s.segs k := fun k hk =>
    Map.find_insert_ne hk
  refine ⟨ok_of (Map.nodup_insert h.nodup _ _) ?_ h.edges, hmono, ?_⟩
  · intro k m hk
    by_cases hkv : k = key v c
    · exact ⟨v, c, hne, hkv, hv, hmono c hfc, hkv ▸ he⟩
    · rw [hne' k hkv] at hk
      obtain ⟨x, y, hxy, hkk, hx, hy, hin⟩ := h.pair' hk
      exact ⟨x, y, hxy, hkk, hmono x hx, hmono y hy, hin⟩
  · intro k hvk hnone
    rw [hne', hnone]
    rintro rfl
    exact hvk (mem_key.2 (Or.inl rfl))

/-- Pending requests survive an operation that adds vertices from `v` on. -/
theorem reqOk_mono {s s' : State} {v : Nat} (hv : s.next ≤ v) (hn : s.next ≤ s'.next)
    (hf : ∀ x, s.flag x = true → s'.flag x = true)
    (hk : ∀ k, v ∉ k → Map.find s.segs k = none → Map.find s'.segs k = none) {r : Req} (h : ReqOk s r) : ReqOk s' r := by
  match r, h with
  | .edge a b true, ⟨h1, h2, h3, h4⟩ => exact ⟨hf a h1, hf b h2, by omega, by omega⟩
  | .edge a b false, ⟨h1, h2, h3⟩ =>
    refine ⟨hk _ ?_ h1, by omega, by omega⟩
    rw [mem_key]
    omega
  | .cell, _ => trivial
  | .extend v0, ⟨h1, h2⟩ => exact ⟨hf v0 h1, by omega⟩
  | .cross a b c, ⟨h1, h2, h3, h4, h5, h6⟩ => exact ⟨hf a h1, hf b h2, hf c h3, by omega, by omega, by omega⟩

theorem ok_insert {s s' : State} {r : Req} (hi : Insert true s r s') (h : Ok s) (hr : ReqOk s r) :
    Ok s' ∧ ∀ q, ReqOk s q → ReqOk s' q := by
  cases hi with
  | stale => exact ⟨h, fun _ hq => hq⟩
  | crossStale => exact ⟨h, fun _ hq => hq⟩
  | @bulk a b v E' hv hs =>
    refine ⟨?_, fun q hq => by
      refine reqOk_mono (s := s) (v := v) hv ?_ (fun _ hx => ?_) (fun _ _ hk => ?_) hq
      · simp only; omega
      · exact hx
      · exact hk⟩
    refine ok_of h.nodup ?_ (split_edges h hv hs)
    intro k m hk
    obtain ⟨x, y, hxy, hkk, hx, hy, hin⟩ := h.pair' hk
    obtain ⟨-, opp, -, he'⟩ := hs
    refine ⟨x, y, hxy, hkk, hx, hy, (he' _).2 (Or.inl ⟨hin, ?_⟩)⟩
    rintro rfl
    rw [hr.1] at hk
    simp at hk
  | @interface a b v E' s1 hv hs hi =>
    obtain ⟨h1, h2, -, h4⟩ := ok_split h hv hs hr.1 hr.2.1 hi
    refine ⟨h1, fun q hq => ?_⟩
    refine reqOk_mono (s := s) (v := v) hv ?_ ?_ ?_ hq
    · simp only; omega
    · exact h2
    · exact h4
  | @cell v E' hv hs =>
    refine ⟨?_, fun q hq => by
      refine reqOk_mono (s := s) (v := v) hv ?_ (fun _ hx => ?_) (fun _ _ hk => ?_) hq
      · simp only; omega
      · exact hx
      · exact hk⟩
    refine ok_of h.nodup ?_ (add_edges h hv hs)
    intro k m hk
    obtain ⟨x, y, hxy, hkk, hx, hy, hin⟩ := h.pair' hk
    obtain ⟨opp, -, he'⟩ := hs
    exact ⟨x, y, hxy, hkk, hx, hy, (he' _).2 (Or.inl hin)⟩
  | @noEdge v0 v E' hv hs =>
    refine ⟨?_, fun q hq => by
      refine reqOk_mono (s := s) (v := v) hv ?_ (fun _ hx => ?_) (fun _ _ hk => ?_) hq
      · simp only; omega
      · exact hx
      · exact hk⟩
    refine ok_of h.nodup ?_ (add_edges h hv hs)
    intro k m hk
    obtain ⟨x, y, hxy, hkk, hx, hy, hin⟩ := h.pair' hk
    obtain ⟨opp, -, he'⟩ := hs
    exact ⟨x, y, hxy, hkk, hx, hy, (he' _).2 (Or.inl hin)⟩
  | @extend v0 v E' hv hs he =>
    have h1 : Ok { s with edges := E', next := v + 1 } := by
      refine ok_of h.nodup ?_ (add_edges h hv hs)
      intro k m hk
      obtain ⟨x, y, hxy, hkk, hx, hy, hin⟩ := h.pair' hk
      obtain ⟨opp, -, he'⟩ := hs
      exact ⟨x, y, hxy, hkk, hx, hy, (he' _).2 (Or.inl hin)⟩
    obtain ⟨c1, c2, c3⟩ := ok_connect (v := v) (c := v0) h1 hr.1 (by have := hr.2; omega) he
    refine ⟨c1, fun q hq => ?_⟩
    refine reqOk_mono (s := s) (v := v) hv ?_ ?_ ?_ hq
    · simp only; omega
    · exact c2
    · exact c3
  | @cross a b c v E' s1 hv hs hi hcr =>
    obtain ⟨h1, h2, -, h4⟩ := ok_split h hv hs hr.1 hr.2.1 hi
    obtain ⟨c1, c2, c3⟩ := ok_connect (v := v) (c := c) h1 (h2 c hr.2.2.1) (by have := hr.2.2.2.2.2; omega) (hcr rfl)
    refine ⟨c1, fun q hq => ?_⟩
    refine reqOk_mono (s := s) (v := v) hv ?_ ?_ ?_ hq
    · simp only; omega
    · exact fun x hx => c2 x (h2 x hx)
    · exact fun k hk hn => c3 k hk (h4 k hk hn)

theorem ok_inserts {s s' : State} {l : List Req} (hm : Many (Insert true) s l s') (h : Ok s) (hl : ∀ r ∈ l, ReqOk s r) :
    Ok s' := by
  induction hm with
  | nil => exact h
  | cons h1 _ ih =>
    rename_i x l _
    obtain ⟨a1, a2⟩ := ok_insert h1 h (hl x (by simp))
    exact ih a1 (fun r hr => a2 r (hl r (by simp [hr])))

theorem ok_remove {s s' : State} {v : Nat} (hr : Remove s v s') (h : Ok s) : Ok s' := by
  cases hr with
  | @bulk E' hflag hs =>
    refine ok_of h.nodup ?_ (remove_edges h hs)
    intro k m hk
    obtain ⟨x, y, hxy, hkk, hx, hy, hin⟩ := h.pair' hk
    refine ⟨x, y, hxy, hkk, hx, hy, hs.1 k hin ?_⟩
    rw [hkk, mem_key]
    rintro (rfl | rfl)
    · rw [hflag] at hx; simp at hx
    · rw [hflag] at hy; simp at hy
  | @keep star s1 hflag hstar hrm =>
    obtain ⟨f1, f2, -⟩ := filter_incident h hstar
    obtain ⟨c1, -, -⟩ := collect_spec s.segs v _ f1
    have hcoll : ∀ (l : List Nat), ((collect s.segs v l).1.map Prod.fst).Nodup := by
      intro l
      induction l using List.reverseRecOn with
      | nil => exact h.nodup
      | append_singleton l o ih =>
        have hstep : collect s.segs v (l ++ [o]) = match Map.find (collect s.segs v l).1 (key v o) with
            | some m => (Map.erase (collect s.segs v l).1 (key v o), m, (collect s.segs v l).2.2 ++ [o])
            | none => collect s.segs v l := by
          unfold collect
          rw [List.foldl_append]
          rfl
        rw [hstep]
        split
        · exact Map.nodup_erase ih _
        · exact ih
    unfold removeFromInterface at hrm
    simp only at hrm
    split at hrm
    · simp at hrm
    · simp only [Prod.mk.injEq, and_true] at hrm
      subst hrm
      refine ok_of (hcoll _) ?_ h.edges
      intro k m hk
      simp only at hk
      rw [c1] at hk
      split at hk
      · simp at hk
      · exact h.pair' hk
  | @join star s1 o o' E' hflag hstar hrm hs he =>
    obtain ⟨f1, f2, f3⟩ := filter_incident h hstar
    obtain ⟨c1, c2, -⟩ := collect_spec s.segs v _ f1
    rw [f3] at c2
    have hcoll : ∀ (l : List Nat), ((collect s.segs v l).1.map Prod.fst).Nodup := by
      intro l
      induction l using List.reverseRecOn with
      | nil => exact h.nodup
      | append_singleton l o ih =>
        have hstep : collect s.segs v (l ++ [o]) = match Map.find (collect s.segs v l).1 (key v o) with
            | some m => (Map.erase (collect s.segs v l).1 (key v o), m, (collect s.segs v l).2.2 ++ [o])
            | none => collect s.segs v l := by
          unfold collect
          rw [List.foldl_append]
          rfl
        rw [hstep]
        split
        · exact Map.nodup_erase ih _
        · exact ih
    unfold removeFromInterface at hrm
    simp only at hrm
    split at hrm
    · rename_i p q hpq
      simp only [Prod.mk.injEq, Option.some.injEq] at hrm
      obtain ⟨rfl, rfl, rfl⟩ := hrm
      rw [c2] at hpq
      have hp : Incident s v p := (f2 p).1 (by rw [hpq]; simp)
      have hq : Incident s v q := (f2 q).1 (by rw [hpq]; simp)
      obtain ⟨-, -, mp, hmp⟩ := hp
      obtain ⟨-, -, mq, hmq⟩ := hq
      have hpf := (h.flags hmp).2.2.1
      have hqf := (h.flags hmq).2.2.1
      have hpq' : p ≠ q := by
        rw [hpq] at f1
        simpa using f1
      refine ok_of (Map.nodup_insert (hcoll _) _ _) ?_ (remove_edges h hs)
      intro k m hk
      simp only at hk
      by_cases hkpq : k = key p q
      · exact ⟨p, q, hpq', hkpq, hpf, hqf, hkpq ▸ he⟩
      · rw [Map.find_insert_ne hkpq, c1] at hk
        split at hk
        · simp at hk
        · rename_i hno
          obtain ⟨x, y, hxy, hkk, hx, hy, hin⟩ := h.pair' hk
          refine ⟨x, y, hxy, hkk, hx, hy, hs.1 k hin ?_⟩
          intro hvk
          rw [hkk, mem_key] at hvk
          rcases hvk with rfl | rfl
          · refine hno ⟨y, (f2 y).2 ⟨hxy.symm, by rw [show sortIds [v, y] = k from hkk.symm]; exact hin, m, ?_⟩, hkk⟩
            rw [show sortIds [v, y] = k from hkk.symm]; exact hk
          · have hkk' : k = key v x := by rw [hkk, key_comm]
            refine hno ⟨x, (f2 x).2 ⟨hxy, by rw [show sortIds [v, x] = k from hkk'.symm]; exact hin, m, ?_⟩, hkk'⟩
            rw [show sortIds [v, x] = k from hkk'.symm]; exact hk
    · simp at hrm

theorem ok_removes {s s' : State} {l : List Nat} (hm : Many Remove s l s') (h : Ok s) : Ok s' := by
  induction hm with
  | nil => exact h
  | cons h1 _ ih => exact ih (ok_remove h1 h)

/-- The invariant of grid and queues. -/
structure Inv (f : Full) : Prop where
  ok : Ok f.s
  queue : ∀ r ∈ f.insert, ReqOk f.s r

theorem bulk_true {s : State} (h : Ok s) {a b : Nat} :
    isInterfaceBulk s [a, b] = (Map.find s.segs (key a b)).isSome := by
  unfold isInterfaceBulk
  rw [show sortIds [a, b] = key a b from rfl]
  cases hf : Map.find s.segs (key a b) with
  | none => simp
  | some m =>
    obtain ⟨-, h1, h2, -⟩ := h.flags hf
    simp [h1, h2]

theorem inv_step {f f' : Full} (hs : Step true f f') (h : Inv f) : Inv f' := by
  cases hs with
  | @addInterface a b marker hab he hc =>
    unfold addInterface
    split
    · exact h
    · rename_i hn
      rw [bulk_true h.ok] at hn
      have hnone : Map.find f.s.segs (sortIds [a, b]) = none := by
        rw [show sortIds [a, b] = key a b from rfl]
        simpa using hn
      have hmono : ∀ x, f.s.flag x = true → (if x ∈ [a, b] then true else f.s.flag x) = true := by
        intro x hx
        split
        · rfl
        · exact hx
      have hfind := Map.find_insert_new (x := marker) hnone
      refine ⟨ok_of (Map.nodup_insert h.ok.nodup _ _) ?_ h.ok.edges, ?_⟩
      · intro k m hk
        simp only at hk ⊢
        rw [hfind] at hk
        split at hk
        · rename_i hkab
          exact ⟨a, b, hab, hkab, by simp, by simp, hkab ▸ he⟩
        · obtain ⟨x, y, hxy, hkk, hx, hy, hin⟩ := h.ok.pair' hk
          exact ⟨x, y, hxy, hkk, hmono x hx, hmono y hy, hin⟩
      · intro r hr
        have hq := h.queue r hr
        match r, hq with
        | .edge x y true, ⟨h1, h2, h3, h4⟩ => exact ⟨hmono x h1, hmono y h2, h3, h4⟩
        | .edge x y false, ⟨h1, h2, h3⟩ =>
          refine ⟨?_, h2, h3⟩
          simp only
          rw [hfind, if_neg, h1]
          intro hk
          exact hc rfl x y hr (sort_eq_iff.1 hk)
        | .cell, _ => trivial
        | .extend v0, ⟨h1, h2⟩ => exact ⟨hmono v0 h1, h2⟩
        | .cross x y z, ⟨h1, h2, h3, h4⟩ => exact ⟨hmono x h1, hmono y h2, hmono z h3, h4⟩
  | @refine a b hab he =>
    refine ⟨h.ok, ?_⟩
    intro r hr
    rcases List.mem_append.1 hr with hr | hr
    · exact h.queue r hr
    · simp only [List.mem_singleton] at hr
      subst hr
      obtain ⟨-, ha, hb⟩ := edge_lt h.ok he
      cases hf : isInterfaceBulk f.s [a, b] with
      | true =>
        rw [bulk_true h.ok] at hf
        obtain ⟨m, hm⟩ := Option.isSome_iff_exists.1 hf
        obtain ⟨-, h1, h2, -⟩ := h.ok.flags hm
        exact ⟨h1, h2, ha, hb⟩
      | false =>
        rw [bulk_true h.ok] at hf
        exact ⟨by simpa using hf, ha, hb⟩
  | cell =>
    refine ⟨h.ok, ?_⟩
    intro r hr
    rcases List.mem_append.1 hr with hr | hr
    · exact h.queue r hr
    · simp only [List.mem_singleton] at hr
      subst hr
      trivial
  | extend hv hlt =>
    refine ⟨h.ok, ?_⟩
    intro r hr
    rcases List.mem_append.1 hr with hr | hr
    · exact h.queue r hr
    · simp only [List.mem_singleton] at hr
      subst hr
      exact ⟨hv, hlt⟩
  | @cross a b c hab hc hlt hca hcb =>
    refine ⟨h.ok, ?_⟩
    intro r hr
    rcases List.mem_append.1 hr with hr | hr
    · exact h.queue r hr
    · simp only [List.mem_singleton] at hr
      subst hr
      rw [bulk_true h.ok] at hab
      obtain ⟨m, hm⟩ := Option.isSome_iff_exists.1 hab
      obtain ⟨-, h1, h2, h3⟩ := h.ok.flags hm
      obtain ⟨-, ha, hb⟩ := edge_lt h.ok h3
      exact ⟨h1, h2, hc, ha, hb, hlt⟩
  | remove => exact ⟨h.ok, h.queue⟩
  | adapt h1 h2 => exact ⟨ok_removes h2 (ok_inserts h1 h.ok h.queue), by simp⟩

/-- All histories of calls. -/
def Reach (careful : Bool) (f f' : Full) : Prop := Relation.ReflTransGen (Step careful) f f'

/-- A mesh as the factories receive it: every edge joins two different vertices, every segment is an edge, no edge is
inserted twice as a segment. -/
structure Mesh (edges : List (List Nat)) (segs : List (List Nat × Nat)) (next : Nat) : Prop where
  pairs : ∀ e ∈ edges, ∃ a b, a ≠ b ∧ e = sortIds [a, b] ∧ a < next ∧ b < next
  facets : ∀ e ∈ segs, e.1 ∈ edges
  nodup : (segs.map Prod.fst).Nodup

theorem inv_init {edges segs next} (h : Mesh edges segs next) : Inv ⟨ofExplicit edges segs next, [], []⟩ := by
  refine ⟨⟨?_, h.nodup, h.pairs⟩, by simp⟩
  intro e he
  obtain ⟨a, b, hab, hk, -, -⟩ := h.pairs _ (h.facets e he)
  refine ⟨a, b, hab, hk, ?_, ?_, ?_⟩
  · simp only [ofExplicit, List.any_eq_true, List.contains_iff_mem]
    exact ⟨e, he, by rw [hk]; exact mem_key.2 (Or.inl rfl)⟩
  · simp only [ofExplicit, List.any_eq_true, List.contains_iff_mem]
    exact ⟨e, he, by rw [hk]; exact mem_key.2 (Or.inr rfl)⟩
  · simp only [ofExplicit]
    rw [← show e.1 = key a b from hk]
    exact h.facets e he

theorem inv_reach {edges segs next f} (h : Mesh edges segs next) (hr : Reach true ⟨ofExplicit edges segs next, [], []⟩ f) :
    Inv f := by
  induction hr with
  | refl => exact inv_init h
  | tail _ hs ih => exact inv_step hs ih

/-- C111: whatever sequence of `addInterface`, refinement, vertex insertion, extension, crossing and removal is executed on
a grid of the explicit factory, every interface segment has two different vertices, both flagged, and is a facet of the
triangulation. Partial: histories in which a facet becomes an interface facet while its refinement is pending, and those in
which the new vertex at a crossing is not joined with the third vertex, are excluded (see the two negations below). -/
theorem C111_facets_partial {edges segs next} (h : Mesh edges segs next) {f : Full}
    (hr : Reach true ⟨ofExplicit edges segs next, [], []⟩ f) :
    ∀ e ∈ f.s.segs, ∃ a b, a ≠ b ∧ e.1 = sortIds [a, b] ∧ f.s.flag a = true ∧ f.s.flag b = true ∧
      sortIds [a, b] ∈ f.s.edges := fun e he => (inv_reach h hr).ok.pair e he

/-- C27 in these states: after a removal request for an interface vertex whose incident segments are `v a` and `v b` these
two are gone, `a b` is a segment and a facet, no other segment changed, and vertices that were joined by segments still are. -/
theorem C27_request {edges segs next} (h : Mesh edges segs next) {f : Full}
    (hr : Reach true ⟨ofExplicit edges segs next, [], []⟩ f) {v a b : Nat} (hab : a ≠ b)
    (hinc : ∀ o, Incident f.s v o ↔ o = a ∨ o = b) {s' : State} (hrm : Remove f.s v s') :
    Map.find s'.segs (sortIds [v, a]) = none ∧ Map.find s'.segs (sortIds [v, b]) = none ∧
      (∃ m, Map.find s'.segs (sortIds [a, b]) = some m) ∧ sortIds [a, b] ∈ s'.edges ∧
      (∀ k, ¬ k.Perm [v, a] → ¬ k.Perm [v, b] → ¬ k.Perm [a, b] →
        Map.find s'.segs (sortIds k) = Map.find f.s.segs (sortIds k)) ∧
      ∀ x y, x ≠ v → y ≠ v → Joined f.s x y → Joined s' x y := by
  have hok := (inv_reach h hr).ok
  obtain ⟨-, -, m, hm⟩ := (hinc a).2 (Or.inl rfl)
  have hflag := (hok.flags hm).2.1
  cases hrm with
  | bulk hf => rw [hf] at hflag; simp at hflag
  | keep _ hstar hrm =>
    obtain ⟨s1, x, y, h1, -⟩ := C27_join f.s hok v a b _ hstar hab hinc
    rw [h1] at hrm
    simp at hrm
  | join _ hstar hrm hE he =>
    obtain ⟨s1, x, y, h1, h2, h3, h4, ⟨m', h5, -⟩, h6, -⟩ := C27_join f.s hok v a b _ hstar hab hinc
    have hj := C27_connected f.s hok v a b _ hstar hab hinc
    rw [h1] at hrm hj
    simp only [Prod.mk.injEq, Option.some.injEq] at hrm
    obtain ⟨rfl, rfl, rfl⟩ := hrm
    refine ⟨h3, h4, ⟨m', h5⟩, ?_, h6, hj⟩
    rcases h2 with ⟨rfl, rfl⟩ | ⟨rfl, rfl⟩
    · exact he
    · rw [show sortIds [y, x] = key x y from key_comm y x]
      exact he

/-! ## Vertices of segments, for all histories -/

/-- What holds without any restriction. -/
structure Weak (s : State) : Prop where
  pair : ∀ k ∈ s.segs.map Prod.fst, ∃ a b, a ≠ b ∧ k = key a b ∧ s.flag a = true ∧ s.flag b = true ∧ a < s.next ∧ b < s.next
  edges : ∀ e ∈ s.edges, ∃ a b, a ≠ b ∧ e = key a b ∧ a < s.next ∧ b < s.next

/-- What holds of a pending request without any restriction. -/
def ReqWeak (s : State) : Req → Prop
  | .edge a b i => (i = true → s.flag a = true ∧ s.flag b = true) ∧ a < s.next ∧ b < s.next
  | .cell => True
  | .extend v0 => s.flag v0 = true ∧ v0 < s.next
  | .cross a b c => s.flag a = true ∧ s.flag b = true ∧ s.flag c = true ∧ a < s.next ∧ b < s.next ∧ c < s.next

theorem reqWeak_mono {s s' : State} (hn : s.next ≤ s'.next) (hf : ∀ x, s.flag x = true → s'.flag x = true) {r : Req}
    (h : ReqWeak s r) : ReqWeak s' r := by
  match r, h with
  | .edge a b i, ⟨h1, h2, h3⟩ => exact ⟨fun hi => ⟨hf a (h1 hi).1, hf b (h1 hi).2⟩, by omega, by omega⟩
  | .cell, _ => trivial
  | .extend v0, ⟨h1, h2⟩ => exact ⟨hf v0 h1, by omega⟩
  | .cross a b c, ⟨h1, h2, h3, h4, h5, h6⟩ => exact ⟨hf a h1, hf b h2, hf c h3, by omega, by omega, by omega⟩

theorem weak_split_edges {s : State} (h : Weak s) {a b v : Nat} {E' : List (List Nat)} (hv : s.next ≤ v)
    (hs : SplitEdge s.edges a b v E') : ∀ e ∈ E', ∃ x y, x ≠ y ∧ e = key x y ∧ x < v + 1 ∧ y < v + 1 := by
  have : Ok { s with segs := [] } := ⟨by simp, by simp, h.edges⟩
  exact split_edges this hv hs

theorem weak_add_edges {s : State} (h : Weak s) {v : Nat} {E' : List (List Nat)} (hv : s.next ≤ v)
    (hs : AddVertex s.edges v E') : ∀ e ∈ E', ∃ x y, x ≠ y ∧ e = key x y ∧ x < v + 1 ∧ y < v + 1 := by
  have : Ok { s with segs := [] } := ⟨by simp, by simp, h.edges⟩
  exact add_edges this hv hs

theorem weak_remove_edges {s : State} (h : Weak s) {v : Nat} {E' : List (List Nat)} (hs : RemoveVertex s.edges v E') :
    ∀ e ∈ E', ∃ x y, x ≠ y ∧ e = key x y ∧ x < s.next ∧ y < s.next := by
  have : Ok { s with segs := [] } := ⟨by simp, by simp, h.edges⟩
  exact remove_edges this hs

theorem insert_keys {s s' : State} {a b id : Nat} (hs : insertInInterface 2 s [a, b] id = some s') :
    (∀ k ∈ s'.segs.map Prod.fst, k ∈ s.segs.map Prod.fst ∨ k = key id a ∨ k = key id b) ∧
      s'.flag = fun v => if v = id then true else s.flag v := by
  unfold insertInInterface at hs
  obtain ⟨new, hnew, rfl⟩ := Option.map_eq_some_iff.1 hs
  refine ⟨?_, rfl⟩
  have hnew' : ∀ k ∈ new, k = key id a ∨ k = key id b := by
    rw [show sortIds [a, b] = key a b from rfl] at hnew
    rcases newSegments_key a b id with h | h
    · rw [h] at hnew
      cases hnew
      intro k hk
      simpa using hk
    · rw [h] at hnew
      cases hnew
      intro k hk
      simp only [List.mem_cons, List.not_mem_nil, or_false] at hk
      exact hk.symm
  have : ∀ (l : List (List Nat)) (m : List (List Nat × Nat)) (x : Nat) (k : List Nat),
      k ∈ (l.foldl (fun (m : List (List Nat × Nat)) (k : List Nat) => Map.insert m k x) m).map Prod.fst →
      k ∈ m.map Prod.fst ∨ k ∈ l := by
    intro l
    induction l with
    | nil => intro m x k hk; exact Or.inl hk
    | cons j l ih =>
      intro m x k hk
      rcases ih _ _ _ hk with h | h
      · rcases Map.mem_keys_insert.1 h with h | h
        · first
            | exact Or.inl h
            | exact Or.inr (by simp [h])
        · first
            | exact Or.inl h
            | exact Or.inr (by simp [h])
      · exact Or.inr (List.mem_cons_of_mem _ h)
  intro k hk
  rcases this _ _ _ _ hk with h | h
  · exact Or.inl (Map.mem_keys_erase.1 h).1
  · exact Or.inr (hnew' k h)

theorem weak_split {s s' : State} (h : Weak s) {a b v : Nat} {E' : List (List Nat)} (hv : s.next ≤ v)
    (hs : SplitEdge s.edges a b v E') (hfa : s.flag a = true) (hfb : s.flag b = true) (ha : a < s.next) (hb : b < s.next)
    (hi : insertInInterface 2 s [a, b] v = some s') :
    Weak { s' with edges := E', next := v + 1 } ∧ (∀ x, s.flag x = true → s'.flag x = true) := by
  obtain ⟨h1, h2⟩ := insert_keys hi
  have hmono : ∀ x, s.flag x = true → s'.flag x = true := by
    intro x hx
    simp [h2, hx]
  have hv' : s'.flag v = true := by simp [h2]
  refine ⟨⟨?_, weak_split_edges h hv hs⟩, hmono⟩
  intro k hk
  simp only at hk ⊢
  rcases h1 k hk with h3 | rfl | rfl
  · obtain ⟨x, y, hxy, hkk, hx, hy, hxl, hyl⟩ := h.pair k h3
    exact ⟨x, y, hxy, hkk, hmono x hx, hmono y hy, by omega, by omega⟩
  · exact ⟨v, a, by omega, rfl, hv', hmono a hfa, by omega, by omega⟩
  · exact ⟨v, b, by omega, rfl, hv', hmono b hfb, by omega, by omega⟩

theorem weak_connect {s : State} (h : Weak s) {v c : Nat} (hfc : s.flag c = true) (hne : v ≠ c) (hv : v < s.next)
    (hc : c < s.next) : Weak (connect s v c) ∧ (∀ x, s.flag x = true → (connect s v c).flag x = true) := by
  have hmono : ∀ x, s.flag x = true → (connect s v c).flag x = true := by
    intro x hx
    simp [connect, hx]
  refine ⟨⟨?_, h.edges⟩, hmono⟩
  have hnew : ∀ k, k = key v c → ∃ a b, a ≠ b ∧ k = key a b ∧ (connect s v c).flag a = true ∧
      (connect s v c).flag b = true ∧ a < (connect s v c).next ∧ b < (connect s v c).next := by
    intro k hk
    exact ⟨v, c, hne, hk, by simp [connect], hmono c hfc, hv, hc⟩
  have hold : ∀ k, k ∈ s.segs.map Prod.fst → ∃ a b, a ≠ b ∧ k = key a b ∧ (connect s v c).flag a = true ∧
      (connect s v c).flag b = true ∧ a < (connect s v c).next ∧ b < (connect s v c).next := by
    intro k hk
    obtain ⟨x, y, hxy, hkk, hx, hy, hxl, hyl⟩ := h.pair k hk
    exact ⟨x, y, hxy, hkk, hmono x hx, hmono y hy, hxl, hyl⟩
  intro k hk
  rcases Map.mem_keys_insert.1 hk with h1 | h1
  · first | exact hnew k h1 | exact hold k h1
  · first | exact hnew k h1 | exact hold k h1

theorem weak_insert {c : Bool} {s s' : State} {r : Req} (hi : Insert c s r s') (h : Weak s) (hr : ReqWeak s r) :
    Weak s' ∧ ∀ q, ReqWeak s q → ReqWeak s' q := by
  have bulk : ∀ (v : Nat) (E' : List (List Nat)), s.next ≤ v →
      (∀ e ∈ E', ∃ x y, x ≠ y ∧ e = key x y ∧ x < v + 1 ∧ y < v + 1) →
      Weak { s with edges := E', next := v + 1 } ∧ ∀ q, ReqWeak s q → ReqWeak { s with edges := E', next := v + 1 } q := by
    intro v E' hv hE
    refine ⟨⟨?_, hE⟩, fun q hq => ?_⟩
    · intro k hk
      obtain ⟨x, y, hxy, hkk, hx, hy, hxl, hyl⟩ := h.pair k hk
      exact ⟨x, y, hxy, hkk, hx, hy, by simp only; omega, by simp only; omega⟩
    · refine reqWeak_mono (s := s) ?_ (fun _ hx => ?_) hq
      · simp only; omega
      · exact hx
  cases hi with
  | stale => exact ⟨h, fun _ hq => hq⟩
  | crossStale => exact ⟨h, fun _ hq => hq⟩
  | @bulk a b v E' hv hs => exact bulk v E' hv (weak_split_edges h hv hs)
  | @interface a b v E' s1 hv hs hi =>
    obtain ⟨h1, h2⟩ := weak_split h hv hs (hr.1 rfl).1 (hr.1 rfl).2 hr.2.1 hr.2.2 hi
    refine ⟨h1, fun q hq => reqWeak_mono (s := s) ?_ ?_ hq⟩
    · simp only; omega
    · exact h2
  | @cell v E' hv hs => exact bulk v E' hv (weak_add_edges h hv hs)
  | @noEdge v0 v E' hv hs => exact bulk v E' hv (weak_add_edges h hv hs)
  | @extend v0 v E' hv hs he =>
    obtain ⟨b1, -⟩ := bulk v E' hv (weak_add_edges h hv hs)
    have := hr.2
    obtain ⟨c1, c2⟩ := weak_connect (v := v) (c := v0) b1 hr.1 (by omega) (by simp only; omega) (by simp only; omega)
    refine ⟨c1, fun q hq => reqWeak_mono (s := s) ?_ ?_ hq⟩
    · simp only; omega
    · exact c2
  | @cross a b c v E' s1 hv hs hi hcr =>
    obtain ⟨hfa, hfb, hfc, ha, hb, hc⟩ := hr
    obtain ⟨h1, h2⟩ := weak_split h hv hs hfa hfb ha hb hi
    obtain ⟨c1, c2⟩ := weak_connect (v := v) (c := c) h1 (h2 c hfc) (by omega) (by simp only; omega) (by simp only; omega)
    refine ⟨c1, fun q hq => reqWeak_mono (s := s) ?_ ?_ hq⟩
    · simp only; omega
    · exact fun x hx => c2 x (h2 x hx)

theorem weak_inserts {c : Bool} {s s' : State} {l : List Req} (hm : Many (Insert c) s l s') (h : Weak s)
    (hl : ∀ r ∈ l, ReqWeak s r) : Weak s' := by
  induction hm with
  | nil => exact h
  | cons h1 _ ih =>
    rename_i x l _
    obtain ⟨a1, a2⟩ := weak_insert h1 h (hl x (by simp))
    exact ih a1 (fun r hr => a2 r (hl r (by simp [hr])))

theorem collect_keys (segs : List (List Nat × Nat)) (v : Nat) (l : List Nat) :
    (∀ k ∈ (collect segs v l).1.map Prod.fst, k ∈ segs.map Prod.fst) ∧ (collect segs v l).2.2.Sublist l := by
  induction l using List.reverseRecOn with
  | nil => exact ⟨fun k hk => hk, List.Sublist.refl _⟩
  | append_singleton l o ih =>
    have hstep : collect segs v (l ++ [o]) = match Map.find (collect segs v l).1 (key v o) with
        | some m => (Map.erase (collect segs v l).1 (key v o), m, (collect segs v l).2.2 ++ [o])
        | none => collect segs v l := by
      unfold collect
      rw [List.foldl_append]
      rfl
    rw [hstep]
    split
    · exact ⟨fun k hk => ih.1 k (Map.mem_keys_erase.1 hk).1, ih.2.append (List.Sublist.refl _)⟩
    · exact ⟨ih.1, ih.2.trans (List.sublist_append_left _ _)⟩

theorem weak_remove {s s' : State} {v : Nat} (hr : Remove s v s') (h : Weak s) : Weak s' := by
  cases hr with
  | @bulk E' hflag hs => exact ⟨h.pair, weak_remove_edges h hs⟩
  | @keep star s1 hflag hstar hrm =>
    unfold removeFromInterface at hrm
    simp only at hrm
    split at hrm
    · simp at hrm
    · simp only [Prod.mk.injEq, and_true] at hrm
      subst hrm
      exact ⟨fun k hk => h.pair k ((collect_keys _ _ _).1 k hk), h.edges⟩
  | @join star s1 o o' E' hflag hstar hrm hs he =>
    unfold removeFromInterface at hrm
    simp only at hrm
    split at hrm
    · rename_i p q hpq
      simp only [Prod.mk.injEq, Option.some.injEq] at hrm
      obtain ⟨rfl, rfl, rfl⟩ := hrm
      obtain ⟨k1, k2⟩ := collect_keys s.segs v (star.filter fun o => isInterfaceBulk s [v, o])
      rw [hpq] at k2
      have hnd : [p, q].Nodup := k2.nodup (hstar.1.filter _)
      have hp : p ∈ star.filter fun o => isInterfaceBulk s [v, o] := k2.subset (by simp)
      have hq : q ∈ star.filter fun o => isInterfaceBulk s [v, o] := k2.subset (by simp)
      simp only [List.mem_filter, isInterfaceBulk, List.all_cons, List.all_nil, Bool.and_true, Bool.and_eq_true,
        hstar.2] at hp hq
      have hlt : ∀ x, key v x ∈ s.edges → x < s.next := by
        intro x hx
        obtain ⟨a, b, -, hk, ha, hb⟩ := h.edges _ hx
        have := key_eq_iff.1 hk
        omega
      refine ⟨?_, weak_remove_edges h hs⟩
      have hnew : ∀ k, k = key p q → ∃ a b, a ≠ b ∧ k = key a b ∧ s.flag a = true ∧ s.flag b = true ∧ a < s.next ∧ b < s.next :=
        fun k hk => ⟨p, q, by simpa using hnd, hk, hp.2.1.2, hq.2.1.2, hlt p hp.1.2, hlt q hq.1.2⟩
      have hold : ∀ k, k ∈ (collect s.segs v (star.filter fun o => isInterfaceBulk s [v, o])).1.map Prod.fst →
          ∃ a b, a ≠ b ∧ k = key a b ∧ s.flag a = true ∧ s.flag b = true ∧ a < s.next ∧ b < s.next :=
        fun k hk => h.pair k (k1 k hk)
      intro k hk
      rcases Map.mem_keys_insert.1 hk with h1 | h1
      · first | exact hnew k h1 | exact hold k h1
      · first | exact hnew k h1 | exact hold k h1
    · simp at hrm

theorem weak_removes {s s' : State} {l : List Nat} (hm : Many Remove s l s') (h : Weak s) : Weak s' := by
  induction hm with
  | nil => exact h
  | cons h1 _ ih => exact ih (weak_remove h1 h)

theorem weak_step {c : Bool} {f f' : Full} (hs : Step c f f') (h : Weak f.s ∧ ∀ r ∈ f.insert, ReqWeak f.s r) :
    Weak f'.s ∧ ∀ r ∈ f'.insert, ReqWeak f'.s r := by
  obtain ⟨hw, hq⟩ := h
  have push : ∀ q, ReqWeak f.s q → ∀ r ∈ f.insert ++ [q], ReqWeak f.s r := by
    intro q hqq r hr
    rcases List.mem_append.1 hr with hr | hr
    · exact hq r hr
    · simp only [List.mem_singleton] at hr
      exact hr ▸ hqq
  have hlt : ∀ x y, key x y ∈ f.s.edges → x < f.s.next ∧ y < f.s.next := by
    intro x y hx
    obtain ⟨a, b, -, hk, ha, hb⟩ := hw.edges _ hx
    have := key_eq_iff.1 hk
    omega
  cases hs with
  | @addInterface a b marker hab he hc =>
    unfold addInterface
    split
    · exact ⟨hw, hq⟩
    · have hmono : ∀ x, f.s.flag x = true → (if x ∈ [a, b] then true else f.s.flag x) = true := by
        intro x hx
        split
        · rfl
        · exact hx
      refine ⟨⟨?_, hw.edges⟩, fun r hr => by
        refine reqWeak_mono (s := f.s) ?_ ?_ (hq r hr)
        · exact Nat.le_refl _
        · exact hmono⟩
      have hnew : ∀ k, k = sortIds [a, b] → ∃ x y, x ≠ y ∧ k = key x y ∧ (if x ∈ [a, b] then true else f.s.flag x) = true ∧
          (if y ∈ [a, b] then true else f.s.flag y) = true ∧ x < f.s.next ∧ y < f.s.next :=
        fun k hk => ⟨a, b, hab, hk, by simp, by simp, (hlt a b he).1, (hlt a b he).2⟩
      have hold : ∀ k ∈ f.s.segs.map Prod.fst, ∃ x y, x ≠ y ∧ k = key x y ∧ (if x ∈ [a, b] then true else f.s.flag x) = true ∧
          (if y ∈ [a, b] then true else f.s.flag y) = true ∧ x < f.s.next ∧ y < f.s.next := by
        intro k hk
        obtain ⟨x, y, hxy, hkk, hx, hy, hl⟩ := hw.pair k hk
        exact ⟨x, y, hxy, hkk, hmono x hx, hmono y hy, hl⟩
      intro k hk
      rcases Map.mem_keys_insert.1 hk with h1 | h1
      · first | exact hnew k h1 | exact hold k h1
      · first | exact hnew k h1 | exact hold k h1
  | @refine a b hab he =>
    refine ⟨hw, push _ ⟨?_, hlt a b he⟩⟩
    intro hi
    simp only [isInterfaceBulk, List.all_cons, List.all_nil, Bool.and_true, Bool.and_eq_true] at hi
    exact hi.1
  | cell => exact ⟨hw, push _ trivial⟩
  | extend hv hlt => exact ⟨hw, push _ ⟨hv, hlt⟩⟩
  | @cross a b c hab hc hcl hca hcb =>
    refine ⟨hw, push _ ?_⟩
    simp only [isInterfaceBulk, List.all_cons, List.all_nil, Bool.and_true, Bool.and_eq_true] at hab
    obtain ⟨m, hm⟩ := Option.isSome_iff_exists.1 hab.2
    obtain ⟨x, y, -, hk, -, -, hx, hy⟩ := hw.pair _ (Map.find_isSome_iff.1 ⟨m, hm⟩)
    have := (key_eq_iff (a := a) (b := b)).1 hk
    exact ⟨hab.1.1, hab.1.2, hc, by omega, by omega, hcl⟩
  | remove => exact ⟨hw, hq⟩
  | adapt h1 h2 => exact ⟨weak_removes h2 (weak_inserts h1 hw hq), by simp⟩

theorem weak_reach {edges segs next} (h : Mesh edges segs next) {f : Full}
    (hr : Reach false ⟨ofExplicit edges segs next, [], []⟩ f) : Weak f.s ∧ ∀ r ∈ f.insert, ReqWeak f.s r := by
  induction hr with
  | refl =>
    have hi := (inv_init h).ok
    refine ⟨⟨?_, hi.edges⟩, by simp⟩
    intro k hk
    obtain ⟨e, he, rfl⟩ := List.mem_map.1 hk
    obtain ⟨a, b, h1, h2, h3, h4, h5⟩ := hi.pair e he
    exact ⟨a, b, h1, h2, h3, h4, (edge_lt hi h5).2⟩
  | tail _ hs ih => exact weak_step hs ih

/-- C30, vertices: for all histories without restriction, the vertices of every segment are different and flagged. -/
theorem C30_vertices {edges segs next} (h : Mesh edges segs next) {f : Full}
    (hr : Reach false ⟨ofExplicit edges segs next, [], []⟩ f) :
    ∀ e ∈ f.s.segs, ∃ a b, a ≠ b ∧ e.1 = sortIds [a, b] ∧ f.s.flag a = true ∧ f.s.flag b = true := by
  intro e he
  obtain ⟨a, b, h1, h2, h3, h4, -⟩ := (weak_reach h hr).1.pair e.1 (List.mem_map_of_mem he)
  exact ⟨a, b, h1, h2, h3, h4⟩

/-- C54: after every history, without any restriction, the queries agree and are true exactly for the segments, in whatever order the
vertices of the facet are stored. -/
theorem C54_agree {edges segs next} (h : Mesh edges segs next) {f : Full}
    (hr : Reach false ⟨ofExplicit edges segs next, [], []⟩ f) (l : List Nat) (hl : l.length = 2) :
    (isInterfaceBulk f.s l = true ↔ ∃ e ∈ f.s.segs, e.1.Perm l) ∧
      isInterfaceIntersection f.s l = isInterfaceBulk f.s l ∧ isInterfaceGrid f.s l = isInterfaceBulk f.s l := by
  match l, hl with
  | [a, b], _ =>
    have hw := (weak_reach h hr).1
    have hkey : (Map.find f.s.segs (sortIds [a, b])).isSome = true → f.s.flag a = true ∧ f.s.flag b = true := by
      intro hs
      obtain ⟨m, hm⟩ := Option.isSome_iff_exists.1 hs
      obtain ⟨x, y, -, hk, hx, hy, -⟩ := hw.pair _ (List.mem_map_of_mem (Map.mem_of_find hm))
      rcases key_eq_iff.1 hk with ⟨rfl, rfl⟩ | ⟨rfl, rfl⟩
      · exact ⟨hx, hy⟩
      · exact ⟨hy, hx⟩
    have hb : isInterfaceBulk f.s [a, b] = (Map.find f.s.segs (sortIds [a, b])).isSome := by
      rw [Bool.eq_iff_iff]
      simp only [isInterfaceBulk, List.all_cons, List.all_nil, Bool.and_true, Bool.and_eq_true]
      exact ⟨fun h => h.2, fun h => ⟨hkey h, h⟩⟩
    refine ⟨?_, rfl, hb.symm⟩
    rw [hb]
    constructor
    · intro hs
      obtain ⟨m, hm⟩ := Option.isSome_iff_exists.1 hs
      exact ⟨_, Map.mem_of_find hm, sortIds_perm _⟩
    · rintro ⟨e, he, hp⟩
      obtain ⟨x, y, -, hk, -⟩ := hw.pair e.1 (List.mem_map_of_mem he)
      have : sortIds [a, b] = e.1 := by
        rw [hk]
        refine sort_eq_iff.2 (hp.symm.trans ?_)
        rw [hk]
        exact sortIds_perm _
      rw [this]
      by_contra hn
      rw [Bool.not_eq_true, Option.isSome_eq_false_iff, Option.isNone_iff_eq_none] at hn
      exact Map.find_none_iff.1 hn (List.mem_map_of_mem he)

/-- C26, for all histories without restriction: if a refinement request for the segment `a b` with marker `m` is processed and the edge still
exists, the two halves are facets of the new triangulation and segments with marker `m`, the new vertex is an interface
vertex, and nothing else of the interface changes. -/
theorem C26_refinement {edges segs next} (h : Mesh edges segs next) {f : Full}
    (hr : Reach false ⟨ofExplicit edges segs next, [], []⟩ f) {a b v m : Nat} {E' : List (List Nat)} {s' : State}
    (hseg : Map.find f.s.segs (sortIds [a, b]) = some m) (hv : f.s.next ≤ v) (hE : SplitEdge f.s.edges a b v E')
    (hi : insertInInterface 2 f.s [a, b] v = some s') :
    sortIds [a, v] ∈ E' ∧ sortIds [v, b] ∈ E' ∧ Map.find s'.segs (sortIds [a, b]) = none ∧
      Map.find s'.segs (sortIds [a, v]) = some m ∧ Map.find s'.segs (sortIds [v, b]) = some m ∧
      (∀ k, ¬ k.Perm [a, b] → ¬ k.Perm [a, v] → ¬ k.Perm [v, b] →
        Map.find s'.segs (sortIds k) = Map.find f.s.segs (sortIds k)) ∧
      s'.flag v = true ∧ (∀ x, x ≠ v → s'.flag x = f.s.flag x) := by
  have hw := (weak_reach h hr).1
  have hfresh : ∀ e ∈ f.s.segs, v ∉ e.1 := by
    intro e he hm
    obtain ⟨x, y, -, hk, -, -, hx, hy⟩ := hw.pair e.1 (List.mem_map_of_mem he)
    rw [hk, mem_key] at hm
    omega
  obtain ⟨s1, h1, h2⟩ := C26_split f.s a b v m hseg hfresh
  rw [h1] at hi
  cases hi
  obtain ⟨-, opp, -, he⟩ := hE
  refine ⟨(he _).2 (Or.inr (Or.inl (key_comm a v))), (he _).2 (Or.inr (Or.inr (Or.inl rfl))), h2⟩

/-! ## What is excluded in `C111_facets_partial` -/

/-- A splitting that meets the contract. -/
def splitList (E : List (List Nat)) (a b v : Nat) (opp : List Nat) : List (List Nat) :=
  E.filter (fun e => e ≠ key a b) ++ [key v a, key v b] ++ opp.map (key v)

theorem splitList_ok {E : List (List Nat)} {a b : Nat} (v : Nat) {opp : List Nat} (hab : key a b ∈ E)
    (hopp : ∀ c ∈ opp, IsVertex E c) : SplitEdge E a b v (splitList E a b v opp) := by
  refine ⟨hab, opp, hopp, fun e => ?_⟩
  simp only [splitList, List.mem_append, List.mem_filter, decide_eq_true_eq, List.mem_cons, List.not_mem_nil, or_false,
    List.mem_map, or_assoc, eq_comm (a := e)]

/-- A triangle without interface. -/
def lateEdges : List (List Nat) := [key 0 1, key 1 2, key 0 2]

/-- C111 is false if a facet is added to the interface after its refinement was requested: the request still says that the
edge is not part of the interface, so the edge is split and the old segment stays. -/
theorem C111_late_false :
    ¬ ∀ (edges : List (List Nat)) (segs : List (List Nat × Nat)) (next : Nat) (f : Full), Mesh edges segs next →
      Reach false ⟨ofExplicit edges segs next, [], []⟩ f → ∀ e ∈ f.s.segs, e.1 ∈ f.s.edges := by
  intro h
  have hm : Mesh lateEdges [] 3 := by
    refine ⟨?_, by simp, by simp⟩
    intro e he
    simp only [lateEdges, List.mem_cons, List.not_mem_nil, or_false] at he
    rcases he with rfl | rfl | rfl
    · exact ⟨0, 1, by decide, rfl, by decide, by decide⟩
    · exact ⟨1, 2, by decide, rfl, by decide, by decide⟩
    · exact ⟨0, 2, by decide, rfl, by decide, by decide⟩
  have s1 := Step.refine (careful := false) (f := ⟨ofExplicit lateEdges [] 3, [], []⟩) (a := 0) (b := 1) (by decide) (by decide)
  have s2 := Step.addInterface (careful := false)
    (f := ⟨ofExplicit lateEdges [] 3, [Req.edge 0 1 false], []⟩) (a := 0) (b := 1) (marker := 1) (by decide) (by decide) (by simp)
  have s3 := Step.adapt (careful := false)
    (f := ⟨addInterface (ofExplicit lateEdges [] 3) [0, 1] 1, [Req.edge 0 1 false], []⟩)
    (Many.cons (Insert.bulk (v := 3) (by decide) (splitList_ok 3 (opp := [2]) (by decide) (by
      intro c hc
      simp only [List.mem_singleton] at hc
      subst hc
      exact ⟨key 1 2, by decide, by decide⟩))) Many.nil) Many.nil
  have hr : Reach false ⟨ofExplicit lateEdges [] 3, [], []⟩ _ :=
    ((Relation.ReflTransGen.single s1).tail s2).tail s3
  exact absurd (h _ _ _ _ hm hr (key 0 1, 1) (by decide)) (by decide)

/-- Four triangles 0 1 2, 0 1 3, 0 2 4, 1 2 4 with the interface segments 0 1 and 2 4. -/
def crossEdges : List (List Nat) := [key 0 1, key 0 2, key 1 2, key 0 3, key 1 3, key 0 4, key 1 4, key 2 4]

/-- The same mesh with its segments. -/
def crossSegs : List (List Nat × Nat) := [(key 0 1, 1), (key 2 4, 2)]

theorem cross_mesh : Mesh crossEdges crossSegs 5 := by
  refine ⟨?_, by decide, by decide⟩
  intro e he
  simp only [crossEdges, List.mem_cons, List.not_mem_nil, or_false] at he
  rcases he with rfl | rfl | rfl | rfl | rfl | rfl | rfl | rfl
  · exact ⟨0, 1, by decide, rfl, by decide, by decide⟩
  · exact ⟨0, 2, by decide, rfl, by decide, by decide⟩
  · exact ⟨1, 2, by decide, rfl, by decide, by decide⟩
  · exact ⟨0, 3, by decide, rfl, by decide, by decide⟩
  · exact ⟨1, 3, by decide, rfl, by decide, by decide⟩
  · exact ⟨0, 4, by decide, rfl, by decide, by decide⟩
  · exact ⟨1, 4, by decide, rfl, by decide, by decide⟩
  · exact ⟨2, 4, by decide, rfl, by decide, by decide⟩

theorem vertices_of {E : List (List Nat)} {opp : List Nat} (h : ∀ c ∈ opp, ∃ e ∈ E, c ∈ e) : ∀ c ∈ opp, IsVertex E c := h

/-- C111 is false if another edge of the crossed triangle is refined first: the new vertex on the segment 0 1 is then joined
with the midpoint of 1 2, but the new segment is recorded between it and vertex 2. -/
theorem C111_cross_false :
    ¬ ∀ (edges : List (List Nat)) (segs : List (List Nat × Nat)) (next : Nat) (f : Full), Mesh edges segs next →
      Reach false ⟨ofExplicit edges segs next, [], []⟩ f → ∀ e ∈ f.s.segs, e.1 ∈ f.s.edges := by
  intro h
  have s1 := Step.refine (careful := false) (f := ⟨ofExplicit crossEdges crossSegs 5, [], []⟩) (a := 1) (b := 2) (by decide)
    (by decide)
  have s2 := Step.cross (careful := false) (f := ⟨ofExplicit crossEdges crossSegs 5, [Req.edge 1 2 false], []⟩)
    (a := 0) (b := 1) (c := 2) (by decide) (by decide) (by decide) (by decide) (by decide)
  have hi1 := Insert.bulk (careful := false) (s := ofExplicit crossEdges crossSegs 5) (a := 1) (b := 2) (v := 5) (by decide)
    (splitList_ok 5 (opp := [0, 4]) (by decide) (vertices_of (by decide)))
  have hi2 := Insert.cross (careful := false)
    (s := { ofExplicit crossEdges crossSegs 5 with edges := splitList crossEdges 1 2 5 [0, 4], next := 6 })
    (a := 0) (b := 1) (c := 2) (v := 6) (by decide)
    (splitList_ok 6 (opp := [5, 3]) (by decide) (vertices_of (by decide))) rfl (by simp)
  have s3 := Step.adapt (careful := false)
    (f := ⟨ofExplicit crossEdges crossSegs 5, [Req.edge 1 2 false, Req.cross 0 1 2], []⟩)
    (Many.cons hi1 (Many.cons hi2 Many.nil)) Many.nil
  have hr : Reach false ⟨ofExplicit crossEdges crossSegs 5, [], []⟩ _ :=
    ((Relation.ReflTransGen.single s1).tail s2).tail s3
  exact absurd (h _ _ _ _ cross_mesh hr (key 6 2, 1) (by decide)) (by decide)

/-- A history that `C111_facets_partial` covers: refine the segment 0 1, adapt, add the facet 1 2. -/
example : ∃ f, Reach true ⟨ofExplicit crossEdges crossSegs 5, [], []⟩ f ∧
    f.s.segs.map Prod.fst = [key 2 4, key 5 0, key 5 1, key 1 2] := by
  have s1 := Step.refine (careful := true) (f := ⟨ofExplicit crossEdges crossSegs 5, [], []⟩) (a := 0) (b := 1) (by decide)
    (by decide)
  have hi := Insert.interface (careful := true) (s := ofExplicit crossEdges crossSegs 5) (a := 0) (b := 1) (v := 5) (by decide)
    (splitList_ok 5 (opp := [2, 3]) (by decide) (vertices_of (by decide))) rfl
  have s2 := Step.adapt (careful := true) (f := ⟨ofExplicit crossEdges crossSegs 5, [Req.edge 0 1 true], []⟩)
    (Many.cons hi Many.nil) Many.nil
  have hr : Reach true ⟨ofExplicit crossEdges crossSegs 5, [], []⟩ _ := (Relation.ReflTransGen.single s1).tail s2
  exact ⟨_, hr.tail (Step.addInterface (a := 1) (b := 2) (marker := 1) (by decide) (by decide) (by simp)), by decide⟩

/-- The same as a history without restrictions, for `C54_agree`. -/
example : ∃ f, Reach false ⟨ofExplicit crossEdges crossSegs 5, [], []⟩ f ∧
    f.s.segs.map Prod.fst = [key 2 4, key 5 0, key 5 1, key 1 2] := by
  have s1 := Step.refine (careful := false) (f := ⟨ofExplicit crossEdges crossSegs 5, [], []⟩) (a := 0) (b := 1) (by decide)
    (by decide)
  have hi := Insert.interface (careful := false) (s := ofExplicit crossEdges crossSegs 5) (a := 0) (b := 1) (v := 5) (by decide)
    (splitList_ok 5 (opp := [2, 3]) (by decide) (vertices_of (by decide))) rfl
  have s2 := Step.adapt (careful := false) (f := ⟨ofExplicit crossEdges crossSegs 5, [Req.edge 0 1 true], []⟩)
    (Many.cons hi Many.nil) Many.nil
  have hr : Reach false ⟨ofExplicit crossEdges crossSegs 5, [], []⟩ _ := (Relation.ReflTransGen.single s1).tail s2
  exact ⟨_, hr.tail (Step.addInterface (a := 1) (b := 2) (marker := 1) (by decide) (by decide) (by simp)), by decide⟩

/-! ## Queries in any dimension -/

/-- C54 for grids of any dimension before adaptation: after any sequence of `addInterface` calls on a grid of the explicit
factory, all queries are true exactly for the facets that were inserted as interface segments in the factory or added
later, whatever the order of the vertices. -/
theorem C54_added (segs : List (List Nat × Nat)) (edges : List (List Nat)) (next : Nat) (hs : ∀ e ∈ segs, sortIds e.1 = e.1)
    (adds : List (List Nat × Nat)) (l : List Nat) :
    let s := adds.foldl (fun (s : State) (x : List Nat × Nat) => addInterface s x.1 x.2) (ofExplicit edges segs next)
    (isInterfaceBulk s l = true ↔ (∃ e ∈ segs, e.1.Perm l) ∨ ∃ x ∈ adds, x.1.Perm l) ∧
      isInterfaceIntersection s l = isInterfaceBulk s l ∧ isInterfaceGrid s l = isInterfaceBulk s l := by
  have hinv : ∀ adds : List (List Nat × Nat),
      let s := adds.foldl (fun (s : State) (x : List Nat × Nat) => addInterface s x.1 x.2) (ofExplicit edges segs next)
      (∀ k ∈ s.segs.map Prod.fst, ∀ v ∈ k, s.flag v = true) ∧
        ∀ k, k ∈ s.segs.map Prod.fst ↔ k ∈ segs.map Prod.fst ∨ ∃ x ∈ adds, k = sortIds x.1 := by
    intro adds
    induction adds using List.reverseRecOn with
    | nil =>
      refine ⟨?_, by simp [ofExplicit]⟩
      intro k hk v hv
      obtain ⟨e, he, rfl⟩ := List.mem_map.1 hk
      simp only [List.foldl_nil, ofExplicit, List.any_eq_true, List.contains_iff_mem]
      exact ⟨e, he, hv⟩
    | append_singleton as x ih =>
      simp only [List.foldl_append, List.foldl_cons, List.foldl_nil]
      simp only at ih
      generalize List.foldl (fun (s : State) (x : List Nat × Nat) => addInterface s x.1 x.2) (ofExplicit edges segs next) as
        = s at ih ⊢
      obtain ⟨ih1, ih2⟩ := ih
      have hex : ∀ k, (∃ y ∈ as ++ [x], k = sortIds y.1) ↔ (∃ y ∈ as, k = sortIds y.1) ∨ k = sortIds x.1 := by
        intro k
        constructor
        · rintro ⟨y, hy, hk⟩
          rcases List.mem_append.1 hy with h | h
          · exact Or.inl ⟨y, h, hk⟩
          · simp only [List.mem_singleton] at h
            exact Or.inr (h ▸ hk)
        · rintro (⟨y, hy, hk⟩ | hk)
          · exact ⟨y, List.mem_append_left _ hy, hk⟩
          · exact ⟨x, by simp, hk⟩
      unfold addInterface
      split
      · rename_i hb
        refine ⟨ih1, fun k => ?_⟩
        rw [hex, ← or_assoc, ← ih2]
        simp only [isInterfaceBulk, Bool.and_eq_true] at hb
        have hx := Map.find_isSome_iff.1 (Option.isSome_iff_exists.1 hb.2)
        constructor
        · exact Or.inl
        · rintro (h | rfl)
          · exact h
          · exact hx
      · have hk' : ∀ k, k ∈ (Map.insert s.segs (sortIds x.1) x.2).map Prod.fst ↔ k ∈ s.segs.map Prod.fst ∨ k = sortIds x.1 := by
          intro k
          exact Map.mem_keys_insert
        refine ⟨?_, fun k => ?_⟩
        · intro k hk v hv
          simp only at hk ⊢
          rcases (hk' k).1 hk with h | rfl
          · rw [ih1 k h v hv]
            simp
          · rw [if_pos ((sortIds_perm x.1).mem_iff.1 hv)]
        · simp only
          rw [hk', hex, ← or_assoc, ← ih2]
  obtain ⟨h1, h2⟩ := hinv adds
  intro s
  have hb : isInterfaceBulk s l = (Map.find s.segs (sortIds l)).isSome := by
    unfold isInterfaceBulk
    cases hf : (Map.find s.segs (sortIds l)).isSome with
    | false => simp
    | true =>
      have hk := Map.find_isSome_iff.1 (Option.isSome_iff_exists.1 hf)
      simp only [Bool.and_true, List.all_eq_true]
      intro v hv
      exact h1 _ hk v ((sortIds_perm l).mem_iff.2 hv)
  refine ⟨?_, rfl, hb.symm⟩
  rw [hb, Option.isSome_iff_exists, Map.find_isSome_iff, h2]
  constructor
  · rintro (h | ⟨x, hx, hk⟩)
    · obtain ⟨e, he, hk⟩ := List.mem_map.1 h
      exact Or.inl ⟨e, he, by rw [hk]; exact sortIds_perm l⟩
    · exact Or.inr ⟨x, hx, (sort_eq_iff.1 hk).symm⟩
  · rintro (⟨e, he, hp⟩ | ⟨x, hx, hp⟩)
    · exact Or.inl (List.mem_map.2 ⟨e, he, by rw [← hs e he]; exact sort_eq_iff.2 hp⟩)
    · exact Or.inr ⟨x, hx, sort_eq_iff.2 hp.symm⟩

/-- Triangles of a tetrahedral mesh as segments. -/
example : ∀ e ∈ [([0, 1, 2], 1), ([1, 2, 3], 4)], sortIds e.1 = e.1 := by decide

/-- C123 is false for grids of the implicit factory: no vertex is flagged, so the bulk grid does not see the segments that
the interface grid sees. -/
theorem C123_implicit_false :
    ¬ ∀ (edges : List (List Nat)) (segs : List (List Nat × Nat)) (next : Nat) (l : List Nat), Mesh edges segs next →
      isInterfaceBulk (ofImplicit edges segs next) l = isInterfaceGrid (ofImplicit edges segs next) l := by
  intro h
  exact absurd (h crossEdges crossSegs 5 [0, 1] cross_mesh) (by decide)

end Verif.InterfaceOps
