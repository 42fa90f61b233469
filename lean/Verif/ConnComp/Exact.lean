import Verif.ConnComp.Build
import Mathlib.Data.List.Dedup

/-!
# C57: exactly when building the components is defined
-/

namespace Verif.ConnComp

open Verif Components

/-! ## Specification -/

/-- No component id comes too late: whenever an id `k` appears for the first time, at most `k` different ids have appeared before. -/
def NoneLate (ids : List Nat) : Prop := ∀ l1 k l2, ids = l1 ++ k :: l2 → k ∈ l1 ∨ l1.dedup.length ≤ k

/-- The elements of a conflict zone are connected by facets inside the zone. -/
def ZoneConnected (nbr : Nat → List Nat) (z : List Nat) : Prop :=
  ∀ a ∈ z, ∀ b ∈ z, Relation.ReflTransGen (fun x y => y ∈ nbr x ∧ y ∈ z) a b

/-- Conflict zones on a grid with the leaf elements `leaf`. Besides leaf elements they may contain infinite cells: the zone of a boundary edge does. -/
structure Zones (leaf : List Nat) (nbr : Nat → List Nat) (zones : List (List Nat)) : Prop where
  /-- A zone contains a leaf element. -/
  meets : ∀ z ∈ zones, ∃ c ∈ z, c ∈ leaf
  /-- Zones with a common cell have a common leaf element: an infinite cell belongs to the zone of an edge only together with the leaf element at the
  same boundary facet. -/
  share : ∀ z ∈ zones, ∀ z' ∈ zones, ∀ c ∈ z, c ∈ z' → ∃ c' ∈ leaf, c' ∈ z ∧ c' ∈ z'
  /-- The leaf elements of a zone are connected by facets. -/
  conn : ∀ z ∈ zones, ZoneConnected nbr (z.filter (fun c => c ∈ leaf))

/-- No leaf element and no cell of a zone has marks from before. -/
structure Clean (leaf : List Nat) (zones : List (List Nat)) (s : State) : Prop where
  leaf : ∀ e ∈ leaf, s.num e = 0 ∧ s.vanish e = false
  zone : ∀ z ∈ zones, ∀ c ∈ z, s.num c = 0

/-- Zones of leaf elements only. -/
theorem Zones.of_leaf {leaf : List Nat} {nbr : Nat → List Nat} {zones : List (List Nat)} (hne : ∀ z ∈ zones, z ≠ [])
    (hleaf : ∀ z ∈ zones, ∀ c ∈ z, c ∈ leaf) (hconn : ∀ z ∈ zones, ZoneConnected nbr z) : Zones leaf nbr zones := by
  refine ⟨fun z hz => ?_, fun z hz z' _ c hc hc' => ⟨c, hleaf z hz c hc, hc, hc'⟩, fun z hz => ?_⟩
  · obtain ⟨c, hc⟩ := List.exists_mem_of_ne_nil _ (hne z hz)
    exact ⟨c, hc, hleaf z hz c hc⟩
  · rw [List.filter_eq_self.2 (fun c hc => by simpa using hleaf z hz c hc)]
    exact hconn z hz

theorem Zones.ne {leaf : List Nat} {nbr : Nat → List Nat} {zones : List (List Nat)} (h : Zones leaf nbr zones) : ∀ z ∈ zones, z ≠ [] := by
  rintro z hz rfl
  obtain ⟨c, hc, -⟩ := h.meets _ hz
  simp at hc

theorem Clean.of_leaf {leaf : List Nat} {zones : List (List Nat)} {s : State} (hleaf : ∀ z ∈ zones, ∀ c ∈ z, c ∈ leaf)
    (hclean : ∀ e ∈ leaf, s.num e = 0 ∧ s.vanish e = false) : Clean leaf zones s :=
  ⟨hclean, fun z hz c hc => (hclean c (hleaf z hz c hc)).1⟩

/-! ## Proofs -/

/-- What holds when elements with the component ids `seen` have been visited. -/
structure Full (g : Grid) (leaf seen : List Nat) (cs : List (Nat × Comp)) : Prop where
  nodup : (cs.map Prod.fst).Nodup
  keys : ∀ j, j ∈ cs.map Prod.fst ↔ j ∈ seen
  full : ∀ k c, Map.find cs k = some c → c.entities.Nodup ∧ ∀ x, x ∈ c.entities ↔ x ∈ leaf ∧ g.num x = k + 1

theorem Full.length {g : Grid} {leaf seen : List Nat} {cs : List (Nat × Comp)} (h : Full g leaf seen cs) : cs.length = seen.dedup.length := by
  have : (cs.map Prod.fst).Perm seen.dedup := by
    rw [List.perm_ext_iff_of_nodup h.nodup (List.nodup_dedup _)]
    intro a
    rw [h.keys, List.mem_dedup]
  rw [← this.length_eq, List.length_map]

section
variable {g : Grid} {leaf : List Nat} (hfin : ∀ a n, n ∈ g.nbr a → n ∈ leaf) (hold : ∀ e ∈ leaf, g.isNew e = false)
  (hv : ∀ e ∈ leaf, (g.vanish e = true ↔ g.num e ≠ 0))
  (hconn : ∀ a ∈ leaf, ∀ b ∈ leaf, g.num a ≠ 0 → g.num a = g.num b → Reach g (g.num a) a b)
include hfin hold hv hconn

theorem construct_full (e : Nat) (he : e ∈ leaf) (h0 : g.num e ≠ 0) :
    ∃ es, Construct g e es ∧ es.Nodup ∧ ∀ x, x ∈ es ↔ x ∈ leaf ∧ g.num x = g.num e := by
  obtain ⟨es, h1, -, h3, h4⟩ := C25_component g leaf hfin e
  refine ⟨es, h1, h3, fun x => (h4 x).trans ⟨fun h => ?_, fun h => hconn e he x h.1 h0 h.2.symm⟩⟩
  induction h with
  | refl => exact ⟨he, rfl⟩
  | tail _ hab _ => exact ⟨hfin _ _ hab.1, hab.2.1⟩

/-- The outcome of visiting `r` after elements with the ids `seen`. -/
theorem build_full (r : List Nat) (hr : ∀ e ∈ r, e ∈ leaf) (seen : List Nat) (cs : List (Nat × Comp)) (hF : Full g leaf seen cs) :
    ((∀ l1 k l2, idsOf g r = l1 ++ k :: l2 → k ∈ seen ++ l1 ∨ (seen ++ l1).dedup.length ≤ k) →
      ∃ cs', Build g cs r (some cs') ∧ Full g leaf (seen ++ idsOf g r) cs') ∧
    ((∃ l1 k l2, idsOf g r = l1 ++ k :: l2 ∧ ¬ (k ∈ seen ++ l1 ∨ (seen ++ l1).dedup.length ≤ k)) → Build g cs r none) := by
  induction r generalizing seen cs with
  | nil =>
    refine ⟨fun _ => ⟨cs, .nil, by simpa [idsOf] using hF⟩, ?_⟩
    rintro ⟨l1, k, l2, h, -⟩
    simp [idsOf] at h
  | cons e r ih =>
    have he := hr e (by simp)
    have hr' : ∀ e ∈ r, e ∈ leaf := fun x hx => hr x (by simp [hx])
    cases hve : g.vanish e with
    | false =>
      have hids : idsOf g (e :: r) = idsOf g r := by simp [idsOf, hve]
      rw [hids]
      obtain ⟨i1, i2⟩ := ih hr' seen cs hF
      refine ⟨fun h => ?_, fun h => .cons (.keep hve) (i2 h)⟩
      obtain ⟨cs', h1, h2⟩ := i1 h
      exact ⟨cs', .cons (.keep hve) h1, h2⟩
    | true =>
      have h0 : g.num e ≠ 0 := (hv e he).1 hve
      have hid : componentId g e = g.num e - 1 := by unfold componentId; rw [if_neg h0]
      have hids : idsOf g (e :: r) = (g.num e - 1) :: idsOf g r := by simp [idsOf, hve]
      rw [hids]
      have hlen := hF.length
      -- after a step that ends with complete components
      have next : ∀ cs1, Step g cs e (some cs1) → Full g leaf (seen ++ [g.num e - 1]) cs1 →
          (g.num e - 1 ∈ seen ∨ seen.dedup.length ≤ g.num e - 1) →
          ((∀ l1 k l2, (g.num e - 1) :: idsOf g r = l1 ++ k :: l2 → k ∈ seen ++ l1 ∨ (seen ++ l1).dedup.length ≤ k) →
            ∃ cs', Build g cs (e :: r) (some cs') ∧ Full g leaf (seen ++ (g.num e - 1) :: idsOf g r) cs') ∧
          ((∃ l1 k l2, (g.num e - 1) :: idsOf g r = l1 ++ k :: l2 ∧ ¬ (k ∈ seen ++ l1 ∨ (seen ++ l1).dedup.length ≤ k)) →
            Build g cs (e :: r) none) := by
        intro cs1 hs hF1 hgood
        obtain ⟨i1, i2⟩ := ih hr' (seen ++ [g.num e - 1]) cs1 hF1
        constructor
        · intro h
          obtain ⟨cs', b1, b2⟩ := i1 (fun l1 k l2 hl => by
            have := h ((g.num e - 1) :: l1) k l2 (by rw [hl]; rfl)
            simpa using this)
          exact ⟨cs', .cons hs b1, by simpa using b2⟩
        · rintro ⟨l1, k, l2, hl, hbad⟩
          cases l1 with
          | nil =>
            simp only [List.nil_append, List.cons.injEq] at hl
            exact absurd (by rw [← hl.1]; simpa using hgood) hbad
          | cons a l1 =>
            simp only [List.cons_append, List.cons.injEq] at hl
            obtain ⟨rfl, hl⟩ := hl
            exact .cons hs (i2 ⟨l1, k, l2, hl, by simpa using hbad⟩)
      by_cases hlt : componentId g e < cs.length
      · cases hfd : Map.find cs (componentId g e) with
        | none =>
          have hns : g.num e - 1 ∉ seen := by
            rw [← hF.keys, ← hid]
            exact Map.find_none_iff.1 hfd
          refine ⟨fun h => ?_, fun _ => .undefined (.undefined hve hlt (hold e he) hfd)⟩
          have := h [] (g.num e - 1) (idsOf g r) rfl
          simp only [List.append_nil] at this
          rcases this with h1 | h1
          · exact absurd h1 hns
          · omega
        | some c =>
          have hs : g.num e - 1 ∈ seen := by
            rw [← hF.keys, ← hid]
            exact Map.find_isSome_iff.1 ⟨c, hfd⟩
          obtain ⟨hn, hc⟩ := hF.full _ c hfd
          refine next cs (.has hve hlt (hold e he) hfd ((hc e).2 ⟨he, by omega⟩)) ⟨hF.nodup, ?_, hF.full⟩ (Or.inl hs)
          intro j
          rw [hF.keys]
          simp only [List.mem_append, List.mem_singleton]
          constructor
          · exact Or.inl
          · rintro (h | rfl)
            · exact h
            · exact hs
      · obtain ⟨es, hes, hnd, hmem⟩ := construct_full hfin hold hv hconn e he h0
        refine next _ (.create hve hlt hes) ⟨Map.nodup_set hF.nodup _ _, ?_, ?_⟩ (Or.inr (by omega))
        · intro j
          rw [mem_keys_set, hF.keys, hid]
          simp only [List.mem_append, List.mem_singleton]
          exact or_comm
        · intro k c hk
          rw [Map.find_set] at hk
          split at hk
          · rename_i hkj
            cases hk
            refine ⟨hnd, fun x => (hmem x).trans ?_⟩
            rw [show k + 1 = g.num e by omega]
          · exact hF.full k c hk

end

/-- Reachability inside a zone is reachability by elements with the component number of the zone. -/
theorem zone_reach {g : Grid} {z : List Nat} {k : Nat} (hz : ∀ x ∈ z, g.num x = k ∧ g.isNew x = false) (hc : ZoneConnected g.nbr z) {a b : Nat}
    (ha : a ∈ z) (hb : b ∈ z) : Reach g k a b := by
  have h := hc a ha b hb
  clear hb
  induction h with
  | refl => exact .refl
  | tail _ hxy ih => exact ih.tail ⟨hxy.1, hz _ hxy.2⟩

/-- All leaf elements of linked zones can be reached from each other. -/
theorem linked_reach {g : Grid} {leaf : List Nat} {zones : List (List Nat)} {k : Nat}
    (hz : Zones leaf g.nbr zones) {i j : Nat} (hl : Linked zones i j)
    (hnum : ∀ j z, zones[j]? = some z → Linked zones i j → ∀ x ∈ z.filter (fun c => c ∈ leaf), g.num x = k ∧ g.isNew x = false) :
    ∀ zi zj, zones[i]? = some zi → zones[j]? = some zj → ∀ a ∈ zi, a ∈ leaf → ∀ b ∈ zj, b ∈ leaf → Reach g k a b := by
  have hmem : ∀ {x : Nat} {z : List Nat}, x ∈ z → x ∈ leaf → x ∈ z.filter (fun c => c ∈ leaf) := fun h h' => by simp [h, h']
  induction hl with
  | refl =>
    intro zi zj hi hj a ha hal b hb hbl
    rw [hi] at hj
    cases hj
    exact zone_reach (hnum i zi hi .refl) (hz.conn zi (List.mem_of_getElem? hi)) (hmem ha hal) (hmem hb hbl)
  | @tail m n hm hmn ih =>
    intro zi zj hi hj a ha hal b hb hbl
    obtain ⟨zm, zn, h1, h2, c, hcm, hcn⟩ := hmn
    rw [hj] at h2
    cases h2
    obtain ⟨c', hcl, hcm', hcn'⟩ := hz.share zm (List.mem_of_getElem? h1) zj (List.mem_of_getElem? hj) c hcm hcn
    refine (ih zi zm hi h1 a ha hal c' hcm' hcl).trans ?_
    exact zone_reach (hnum n zj hj (hm.tail ⟨zm, zj, h1, hj, c, hcm, hcn⟩)) (hz.conn zj (List.mem_of_getElem? hj)) (hmem hcn' hcl) (hmem hb hbl)

/-- **C57**: on cells without marks from before, for requests with facet-connected zones: building the components is defined exactly if no
component id comes too late in the order of iteration; and then for every request there is a component with the id of the request, and it
contains exactly the leaf elements in the conflict zones of the requests linked with it, each once. -/
theorem C57_exact (leaf : List Nat) (nbr : Nat → List Nat) (isNew : Nat → Bool) (zones : List (List Nat))
    (s s' : State) (ids : List Nat) (hzones : Zones leaf nbr zones) (hclean : Clean leaf zones s)
    (hfin : ∀ a n, n ∈ nbr a → n ∈ leaf) (hold : ∀ e ∈ leaf, isNew e = false)
    (hm : Marking zones (start s 0) s' ids) :
    (¬ NoneLate (idsOf (gridOf s' nbr isNew) leaf) → Build (gridOf s' nbr isNew) [] leaf none) ∧
    (NoneLate (idsOf (gridOf s' nbr isNew) leaf) →
      ∃ cs, Build (gridOf s' nbr isNew) [] leaf (some cs) ∧ (∀ o, Build (gridOf s' nbr isNew) [] leaf o → o = some cs) ∧
        ∀ i (hi : i < ids.length), ∃ c, Map.find cs ids[i] = some c ∧ c.entities.Nodup ∧
          ∀ x, x ∈ c.entities ↔ x ∈ leaf ∧ ∃ j z, zones[j]? = some z ∧ x ∈ z ∧ Linked zones i j) := by
  have hv : ∀ e ∈ leaf, (s'.vanish e = true ↔ s'.num e ≠ 0) := by
    intro e he
    refine (marking_vanish hm (by simp [start]) ?_).1
    simp [start, hclean.leaf e he]
  obtain ⟨s'', ids', hm', hlen, hlink, hnum⟩ := C24_linked zones s 0 hzones.ne hclean.zone
  obtain ⟨rfl, rfl⟩ := marking_unique hm hm'
  -- the elements with a number are those of the zones
  have hcell : ∀ x ∈ leaf, s''.num x ≠ 0 → ∃ (j : Nat) (z : List Nat), zones[j]? = some z ∧ x ∈ z := by
    intro x hx h0
    by_contra hcon
    have hcc : ¬ Cells zones x := by
      rintro ⟨z, hz, hxz⟩
      obtain ⟨j, hj, rfl⟩ := List.mem_iff_getElem.1 hz
      exact hcon ⟨j, _, List.getElem?_eq_getElem hj, hxz⟩
    have := (marking_vanish hm (by simp [start]) (c := x) (by simp [start, hclean.leaf x hx])).2 hcc
    rw [this] at h0
    simp [start, hclean.leaf x hx] at h0
  have hzone : ∀ j z, zones[j]? = some z → ∀ x ∈ z, ∃ hj : j < ids'.length, s''.num x = ids'[j] + 1 := by
    intro j z hz x hx
    obtain ⟨hj, rfl⟩ := List.getElem?_eq_some_iff.1 hz
    have hj' : j < ids'.length := hlen ▸ hj
    exact ⟨hj', hnum j _ hz x hx _ (List.getElem?_eq_getElem hj')⟩
  have hreach : ∀ a ∈ leaf, ∀ b ∈ leaf, (gridOf s'' nbr isNew).num a ≠ 0 →
      (gridOf s'' nbr isNew).num a = (gridOf s'' nbr isNew).num b → Reach (gridOf s'' nbr isNew) ((gridOf s'' nbr isNew).num a) a b := by
    intro a ha b hb h0 hab
    simp only [gridOf] at h0 hab
    obtain ⟨i, zi, hi, hai⟩ := hcell a ha h0
    obtain ⟨j, zj, hj, hbj⟩ := hcell b hb (hab ▸ h0)
    obtain ⟨hi', ei⟩ := hzone i zi hi a hai
    obtain ⟨hj', ej⟩ := hzone j zj hj b hbj
    have hl : Linked zones i j := (hlink i j hi' hj').1 (by omega)
    refine linked_reach (g := gridOf s'' nbr isNew) hzones hl ?_ zi zj hi hj a hai ha b hbj hb
    intro m zm hm1 hlm x hx
    simp only [List.mem_filter, decide_eq_true_eq] at hx
    obtain ⟨hx, hxl⟩ := hx
    obtain ⟨hm', em⟩ := hzone m zm hm1 x hx
    have := (hlink i m hi' hm').2 hlm
    refine ⟨?_, hold x hxl⟩
    simp only [gridOf]
    omega
  obtain ⟨b1, b2⟩ := build_full (g := gridOf s'' nbr isNew) hfin hold hv hreach leaf (fun _ h => h) [] [] ⟨by simp, by simp, by simp⟩
  constructor
  · intro h
    apply b2
    unfold NoneLate at h
    simp only [not_forall] at h
    obtain ⟨l1, k, l2, h1, h2⟩ := h
    exact ⟨l1, k, l2, h1, by simpa using h2⟩
  · intro h
    obtain ⟨cs, hb, hF⟩ := b1 (by simpa [NoneLate] using h)
    refine ⟨cs, hb, fun o ho => build_unique hb ho, ?_⟩
    intro i hi
    have hzi := List.getElem?_eq_getElem (hlen ▸ hi)
    obtain ⟨ci, hci, hcl⟩ := hzones.meets _ (List.getElem_mem (hlen ▸ hi))
    obtain ⟨hi', hnci⟩ := hzone i _ hzi ci hci
    have hkey : ids'[i] ∈ cs.map Prod.fst := by
      rw [hF.keys, List.nil_append]
      unfold idsOf
      refine List.mem_map.2 ⟨ci, List.mem_filter.2 ⟨hcl, ?_⟩, ?_⟩
      · exact (hv ci hcl).2 (by omega)
      · simp only [gridOf]
        omega
    obtain ⟨c, hc⟩ := Map.find_isSome_iff.2 hkey
    obtain ⟨hnd, hmem⟩ := hF.full _ c hc
    refine ⟨c, hc, hnd, fun x => (hmem x).trans ?_⟩
    simp only [gridOf]
    constructor
    · rintro ⟨hx, hxn⟩
      obtain ⟨j, z, hz, hxz⟩ := hcell x hx (by omega)
      obtain ⟨hj, ej⟩ := hzone j z hz x hxz
      exact ⟨hx, j, z, hz, hxz, (hlink i j hi hj).1 (by omega)⟩
    · rintro ⟨hx, j, z, hz, hxz, hl⟩
      obtain ⟨hj, ej⟩ := hzone j z hz x hxz
      have := (hlink i j hi hj).2 hl
      exact ⟨hx, by omega⟩

/-- **C57**: if all requests are linked, building the components is defined, in whatever order the requests were made, and the one component is complete. -/
theorem C57_linked (leaf : List Nat) (nbr : Nat → List Nat) (isNew : Nat → Bool) (zones : List (List Nat))
    (s s' : State) (ids : List Nat) (hzones : Zones leaf nbr zones) (hclean : Clean leaf zones s)
    (hfin : ∀ a n, n ∈ nbr a → n ∈ leaf) (hold : ∀ e ∈ leaf, isNew e = false)
    (hall : ∀ i j, i < zones.length → j < zones.length → Linked zones i j) (hm : Marking zones (start s 0) s' ids) :
    ∃ cs, Build (gridOf s' nbr isNew) [] leaf (some cs) ∧ (∀ o, Build (gridOf s' nbr isNew) [] leaf o → o = some cs) ∧
      ∀ i (hi : i < ids.length), ∃ c, Map.find cs ids[i] = some c ∧ c.entities.Nodup ∧ ∀ x, x ∈ c.entities ↔ x ∈ leaf ∧ ∃ z ∈ zones, x ∈ z := by
  have hlate : NoneLate (idsOf (gridOf s' nbr isNew) leaf) := by
    obtain ⟨s'', ids', hm', hlen, hlink, hnum⟩ := C24_linked zones s 0 hzones.ne hclean.zone
    obtain ⟨rfl, rfl⟩ := marking_unique hm hm'
    have hsame : ∀ a ∈ idsOf (gridOf s'' nbr isNew) leaf, ∃ j, ∃ hj : j < ids'.length, ids'[j] = a := by
      intro a ha
      obtain ⟨x, hx, rfl⟩ := List.mem_map.1 ha
      obtain ⟨hx, hvx⟩ := List.mem_filter.1 hx
      have hv : s''.num x ≠ 0 := (marking_vanish hm (by simp [start]) (by simp [start, hclean.leaf x hx])).1.1 hvx
      have hcell : Cells zones x := by
        by_contra hcc
        have := (marking_vanish hm (by simp [start]) (c := x) (by simp [start, hclean.leaf x hx])).2 hcc
        rw [this] at hv
        simp [start, hclean.leaf x hx] at hv
      obtain ⟨z, hz, hxz⟩ := hcell
      obtain ⟨j, hj, rfl⟩ := List.mem_iff_getElem.1 hz
      have hj' : j < ids'.length := hlen ▸ hj
      refine ⟨j, hj', ?_⟩
      have := hnum j _ (List.getElem?_eq_getElem hj) x hxz _ (List.getElem?_eq_getElem hj')
      simp only [gridOf]
      omega
    intro l1 k l2 h
    cases l1 with
    | nil => exact Or.inr (by simp)
    | cons a l1 =>
      left
      obtain ⟨i, hi, rfl⟩ := hsame a (by rw [h]; simp)
      obtain ⟨j, hj, rfl⟩ := hsame k (by rw [h]; simp)
      rw [(hlink i j hi hj).2 (hall i j (hlen ▸ hi) (hlen ▸ hj))]
      simp
  have hlen : ids.length = zones.length := by
    obtain ⟨s'', ids', hm', hlen, -, -⟩ := C24_linked zones s 0 hzones.ne hclean.zone
    obtain ⟨rfl, rfl⟩ := marking_unique hm hm'
    exact hlen
  obtain ⟨cs, h1, h2, h3⟩ := (C57_exact leaf nbr isNew zones s s' ids hzones hclean hfin hold hm).2 hlate
  refine ⟨cs, h1, h2, fun i hi => ?_⟩
  obtain ⟨c, c1, c2, c3⟩ := h3 i hi
  refine ⟨c, c1, c2, fun x => (c3 x).trans ⟨?_, ?_⟩⟩
  · rintro ⟨hl, j, z, hz, hx, -⟩
    exact ⟨hl, z, List.mem_of_getElem? hz, hx⟩
  · rintro ⟨hl, z, hz, hx⟩
    obtain ⟨j, hj, rfl⟩ := List.mem_iff_getElem.1 hz
    exact ⟨hl, j, _, List.getElem?_eq_getElem hj, hx, hall i j (hlen ▸ hi) hj⟩

/-! ## Queries -/

/-- What a query of the component of an element can end with: a failed assertion, an exception, undefined behaviour, or a component. -/
inductive Query
  | abort
  | throws
  | undefined
  | ok (c : Comp)

/-- `getConnectedComponent` (mmesh.hh:1764-1771). `created` is `createdEntityConnectedComponentMap_`; `debug`: assertions are active. The first
assertion dereferences the iterator before the second one compares it with the end. -/
def getComponent (debug : Bool) (created : List (Nat × Nat)) (cs : List (Nat × Comp)) (e : Nat) : Query :=
  match Map.find created e with
  | none => .undefined
  | some k =>
    if debug = true ∧ ¬ k < cs.length then .abort else
    match Map.find cs k with
    | none => if debug then .abort else .throws
    | some c => if debug = true ∧ c.entities = [] then .abort else .ok c

/-- **C57**: in a release build a new element that was assigned to a request has a component: exactly the leaf elements in the conflict zones of the requests linked
with this request. -/
theorem C57_query (leaf : List Nat) (nbr : Nat → List Nat) (isNew : Nat → Bool) (zones : List (List Nat))
    (s s' : State) (ids : List Nat) (hzones : Zones leaf nbr zones) (hclean : Clean leaf zones s)
    (hfin : ∀ a n, n ∈ nbr a → n ∈ leaf) (hold : ∀ e ∈ leaf, isNew e = false)
    (hm : Marking zones (start s 0) s' ids) (cs : List (Nat × Comp)) (hb : Build (gridOf s' nbr isNew) [] leaf (some cs))
    (created : List (Nat × Nat)) (e i k : Nat) (hi : ids[i]? = some k) (he : Map.find created e = some k) :
    ∃ c, getComponent false created cs e = .ok c ∧ c.entities.Nodup ∧
      ∀ x, x ∈ c.entities ↔ x ∈ leaf ∧ ∃ j z, zones[j]? = some z ∧ x ∈ z ∧ Linked zones i j := by
  obtain ⟨h1, h2⟩ := C57_exact leaf nbr isNew zones s s' ids hzones hclean hfin hold hm
  have hl : NoneLate (idsOf (gridOf s' nbr isNew) leaf) := by
    by_contra hcon
    cases build_unique (h1 hcon) hb
  obtain ⟨cs', -, h4, h5⟩ := h2 hl
  cases h4 _ hb
  obtain ⟨hi', rfl⟩ := List.getElem?_eq_some_iff.1 hi
  obtain ⟨c, c1, c2, c3⟩ := h5 i hi'
  exact ⟨c, by simp [getComponent, he, c1], c2, c3⟩

/-! ## Examples -/

theorem pair_connected {a b : Nat} (hab : b ∈ exNbr a) (hba : a ∈ exNbr b) : ZoneConnected exNbr [a, b] := by
  intro x hx y hy
  simp only [List.mem_cons, List.not_mem_nil, or_false] at hx hy
  rcases hx with rfl | rfl <;> rcases hy with rfl | rfl
  · exact .refl
  · exact .single ⟨hab, by simp⟩
  · exact .single ⟨hba, by simp⟩
  · exact .refl

/-- The hypotheses of `C57_exact` hold for requests of which the last joins the first two, so that the number 2 is not used: the ids are 0 and 2. -/
example : (∀ z ∈ [[0, 1], [2, 3], [6, 7], [1, 2]], ZoneConnected exNbr z) ∧
    Marking [[0, 1], [2, 3], [6, 7], [1, 2]] (start init 0) (sweep (sweep (sweep (start init 0) [[0, 1], [2, 3], [6, 7], [1, 2]]).1
      [[0, 1], [2, 3], [6, 7], [1, 2]]).1 [[0, 1], [2, 3], [6, 7], [1, 2]]).1 [0, 0, 2, 0] ∧
    idsOf (gridOf (sweep (sweep (sweep (start init 0) [[0, 1], [2, 3], [6, 7], [1, 2]]).1
      [[0, 1], [2, 3], [6, 7], [1, 2]]).1 [[0, 1], [2, 3], [6, 7], [1, 2]]).1 exNbr (fun _ => false)) (List.range 10) = [0, 0, 0, 0, 2, 2] ∧
    NoneLate [0, 0, 0, 0, 2, 2] := by
  refine ⟨?_, .again (by decide) (.again (by decide) (.done (by decide))), by decide, ?_⟩
  · intro z hz
    simp only [List.mem_cons, List.not_mem_nil, or_false] at hz
    rcases hz with rfl | rfl | rfl | rfl <;> exact pair_connected (by decide) (by decide)
  · intro l1 k l2 h
    match l1, h with
    | [], h => exact Or.inr (by simp)
    | [a], h => simp only [List.cons_append, List.nil_append, List.cons.injEq] at h; simp [← h.1, ← h.2.1]
    | [a, b], h => simp only [List.cons_append, List.nil_append, List.cons.injEq] at h; simp [← h.1, ← h.2.2.1]
    | [a, b, c], h => simp only [List.cons_append, List.nil_append, List.cons.injEq] at h; simp [← h.1, ← h.2.2.2.1]
    | [a, b, c, d], h =>
      simp only [List.cons_append, List.nil_append, List.cons.injEq] at h
      obtain ⟨rfl, rfl, rfl, rfl, rfl, -⟩ := h
      exact Or.inr (by decide)
    | [a, b, c, d, e], h =>
      simp only [List.cons_append, List.nil_append, List.cons.injEq] at h
      simp [← h.2.2.2.2.1, ← h.2.2.2.2.2.1]
    | a :: b :: c :: d :: e :: f :: l, h =>
      have := congrArg List.length h
      simp at this

/-- The hypotheses also hold for requests at the boundary: 0 and 9 are the ends of the strip, the infinite cells 10 and 11 lie at their boundary edges, and the
edge between 0 and 10 is requested twice. -/
example : Zones (List.range 10) exNbr [[0, 10], [0, 10], [9, 11], [4, 5]] ∧ Clean (List.range 10) [[0, 10], [0, 10], [9, 11], [4, 5]] init := by
  refine ⟨⟨by decide, by decide, ?_⟩, ⟨fun _ _ => ⟨rfl, rfl⟩, fun _ _ _ _ => rfl⟩⟩
  have single : ∀ a, ZoneConnected exNbr [a] := by
    intro a x hx y hy
    simp only [List.mem_singleton] at hx hy
    subst hx hy
    exact .refl
  intro z hz
  simp only [List.mem_cons, List.not_mem_nil, or_false] at hz
  rcases hz with rfl | rfl | rfl | rfl
  · exact single 0
  · exact single 0
  · exact single 9
  · exact pair_connected (by decide) (by decide)

/-- **C185** (not guaranteed): with the requests of the example the component numbers have a gap, and in a debug build the query of the component of a new element of
the third request ends with a failed assertion; in a release build it returns the component. -/
theorem C185_gap_false : ∃ cs, Build (gridOf (sweep (sweep (sweep (start init 0) [[0, 1], [2, 3], [6, 7], [1, 2]]).1
      [[0, 1], [2, 3], [6, 7], [1, 2]]).1 [[0, 1], [2, 3], [6, 7], [1, 2]]).1 exNbr (fun _ => false)) [] (List.range 10) (some cs) ∧
    getComponent true [(20, 2)] cs 20 = .abort ∧ ∃ c, getComponent false [(20, 2)] cs 20 = .ok c ∧ c.entities = [7, 6] := by
  generalize hg : (gridOf (sweep (sweep (sweep (start init 0) [[0, 1], [2, 3], [6, 7], [1, 2]]).1
      [[0, 1], [2, 3], [6, 7], [1, 2]]).1 [[0, 1], [2, 3], [6, 7], [1, 2]]).1 exNbr (fun _ => false)) = g
  have c1 : Construct g 0 [0, 1, 2, 3] := by subst hg; exact insertN_sound (f := 20) (by decide)
  have c2 : Construct g 6 [6, 7] := by subst hg; exact insertN_sound (f := 20) (by decide)
  have c3 : Construct g 7 [7, 6] := by subst hg; exact insertN_sound (f := 20) (by decide)
  have hold : ∀ e, g.isNew e = false := by subst hg; intro e; rfl
  have hn : (List.range 10).map g.num = [1, 1, 1, 1, 0, 0, 3, 3, 0, 0] := by subst hg; decide
  have hv : (List.range 10).map g.vanish = [true, true, true, true, false, false, true, true, false, false] := by subst hg; decide
  simp only [List.range, List.range.loop, List.map_cons, List.map_nil, List.cons.injEq, and_true] at hn hv
  obtain ⟨n0, n1, n2, n3, n4, n5, n6, n7, n8, n9⟩ := hn
  obtain ⟨v0, v1, v2, v3, v4, v5, v6, v7, v8, v9⟩ := hv
  have hid : ∀ e, g.num e ≠ 0 → componentId g e = g.num e - 1 := fun e h => by unfold componentId; rw [if_neg h]
  have s0 := Step.create (cs := []) v0 (by simp) c1
  rw [hid 0 (by omega), n0] at s0
  have h1 : ∀ e, g.vanish e = true → g.num e = 1 → e ∈ [0, 1, 2, 3] →
      Step g (Map.set [] (1 - 1) ⟨1, [0, 1, 2, 3]⟩) e (some (Map.set [] (1 - 1) ⟨1, [0, 1, 2, 3]⟩)) := by
    intro e hve hne hmem
    exact .has hve (by rw [hid e (by omega), hne]; decide) (hold e) (c := ⟨1, [0, 1, 2, 3]⟩) (by rw [hid e (by omega), hne]; rfl) hmem
  have s6 := Step.create (cs := Map.set [] (1 - 1) ⟨1, [0, 1, 2, 3]⟩) v6 (by rw [hid 6 (by omega), n6]; decide) c2
  rw [hid 6 (by omega), n6] at s6
  have s7 := Step.create (cs := Map.set (Map.set [] (1 - 1) ⟨1, [0, 1, 2, 3]⟩) (3 - 1) ⟨3, [6, 7]⟩) v7 (by rw [hid 7 (by omega), n7]; decide) c3
  rw [hid 7 (by omega), n7] at s7
  refine ⟨_, .cons s0 (.cons (h1 1 v1 n1 (by decide)) (.cons (h1 2 v2 n2 (by decide)) (.cons (h1 3 v3 n3 (by decide))
    (.cons (.keep v4) (.cons (.keep v5) (.cons s6 (.cons s7 (.cons (.keep v8) (.cons (.keep v9) .nil))))))))), ?_, ⟨3, [7, 6]⟩, ?_, rfl⟩
  · rfl
  · rfl

end Verif.ConnComp
