import Verif.InterfaceTransfer.Examples

/-!
# C198: any number of adaptations and movements of the interface with its data
-/

namespace Verif.InterfaceTransfer

open Verif RefElem InterfaceOps Transfer

/-- What a user does with a grid, its interface and data on the interface: adaptations as in C197, each followed by `adapt(handle)` of the
interface grid, and, if `moves`, movements of the vertices after which the interface is proper again; they leave the values alone. -/
inductive History (moves : Prop) (ident : List ℕ → ℕ) (pos : ℕ → ℝ × ℝ) (s : State) (val : ℕ → ℝ) : (ℕ → ℝ × ℝ) → State → (ℕ → ℝ) → Prop
  | start : History moves ident pos s val pos s val
  | adapt {p s' u rs vs t corner order} : History moves ident pos s val p s' u → Requests ident p s' rs vs → Adapts ident p s' rs vs t →
      Corners p corner t.s → order.Perm (t.s.segs.map Prod.fst) → History moves ident pos s val p t.s (adaptData ident corner t order u)
  | move {p s' u p'} : moves → History moves ident pos s val p s' u → ProperInterface p' s' → History moves ident pos s val p' s' u

variable {moves : Prop} {ident : List ℕ → ℕ} {pos pos' : ℕ → ℝ × ℝ} {s s' : State} {val val' : ℕ → ℝ}

/-- C198: the interface is proper at any time. -/
theorem C198_proper (h0 : ProperInterface pos s) (h : History moves ident pos s val pos' s' val') : ProperInterface pos' s' := by
  induction h with
  | start => exact h0
  | adapt _ hr ha _ _ ih => exact C197_proper ih hr ha
  | move _ _ hp _ => exact hp

/-- C198: the values stay within their range. -/
theorem C198_bounds (hi : Function.Injective ident) (h0 : ProperInterface pos s) (h : History moves ident pos s val pos' s' val') (m M : ℝ)
    (hb : ∀ a b, Elem s a b → m ≤ val (ident (sortIds [a, b])) ∧ val (ident (sortIds [a, b])) ≤ M) :
    ∀ a b, Elem s' a b → m ≤ val' (ident (sortIds [a, b])) ∧ val' (ident (sortIds [a, b])) ≤ M := by
  induction h with
  | start => exact hb
  | adapt hh hr ha hc ho ih => exact C197_bounds hi (C198_proper h0 hh) hr ha hc ho m M ih
  | move _ _ _ ih => exact ih

theorem no_moves (h : History False ident pos s val pos' s' val') : pos' = pos := by
  generalize hm : False = moves at h
  induction h with
  | start => rfl
  | adapt _ _ _ _ _ ih => exact ih
  | move h => exact (hm ▸ h).elim

/-- C198: without movements the interface consists of the same points as at the beginning. -/
theorem C198_points (h0 : ProperInterface pos s) (h : History False ident pos s val pos' s' val') (x : ℝ × ℝ) :
    (∃ a b, Elem s' a b ∧ x ∈ segment ℝ (pos' a) (pos' b)) ↔ ∃ a b, Elem s a b ∧ x ∈ segment ℝ (pos a) (pos b) := by
  generalize hm : False = moves at h
  induction h with
  | start => exact Iff.rfl
  | adapt hh hr ha hc ho ih =>
    exact (C197_points (C198_proper h0 hh) hr ha x).trans ih
  | move h => exact (hm ▸ h).elim

/-- C198: without movements the integral over the interface is that of the beginning. -/
theorem C198_conservation (hi : Function.Injective ident) (h0 : ProperInterface pos s) (h : History False ident pos s val pos' s' val') :
    integral ident pos' s' val' = integral ident pos s val := by
  generalize hm : False = moves at h
  induction h with
  | start => rfl
  | adapt hh hr ha hc ho ih =>
    rw [C197_conservation hi (C198_proper h0 hh) hr ha hc ho]
    exact ih
  | move h => exact (hm ▸ h).elim

/-- A history with an adaptation that refines and coarsens, and a movement. -/
example (ident : List ℕ → ℕ) (val : ℕ → ℝ) : ∃ pos' s' val', History True ident exPos exState val pos' s' val' ∧ pos' ≠ exPos ∧ Elem s' 0 2 := by
  obtain ⟨t, h1, h2⟩ := ex_adapts ident
  have hh : History True ident exPos exState val exPos t.s
      (adaptData ident (fun k => (exPos (k.headD 0), exPos (k.getLastD 0))) t (t.s.segs.map Prod.fst) val) := by
    refine .adapt .start (ex_requests ident) h1 ?_ (List.Perm.refl _)
    intro a b _
    show (fun k => (exPos (k.headD 0), exPos (k.getLastD 0))) (key a b) = _ ∨ (fun k => (exPos (k.headD 0), exPos (k.getLastD 0))) (key a b) = _
    rcases key_cases a b with e | e <;> rw [e]
    · exact Or.inl rfl
    · exact Or.inr rfl
  have hp := C198_proper ex_proper hh
  refine ⟨fun v => exPos v + (1, 1), _, _, .move trivial hh ?_, ?_, ?_⟩
  · refine ⟨hp.ok, fun v w hv hw e => hp.inj v w hv hw (add_right_cancel e), ?_⟩
    intro a b c d hab hcd hne x hx hx'
    have shift : ∀ p q : ℝ × ℝ, x ∈ segment ℝ (p + (1, 1)) (q + (1, 1)) → x - (1, 1) ∈ segment ℝ p q := by
      rintro p q ⟨r, r', hr, hr', hrr, rfl⟩
      refine ⟨r, r', hr, hr', hrr, ?_⟩
      have e : r' = 1 - r := by linarith
      subst e
      ext <;> simp only [Prod.fst_add, Prod.snd_add, Prod.smul_fst, Prod.smul_snd, Prod.fst_sub, Prod.snd_sub, smul_eq_mul] <;> ring
    obtain ⟨v, h3, h4, h5⟩ := hp.meet a b c d hab hcd hne (x - (1, 1)) (shift _ _ hx) (shift _ _ hx')
    exact ⟨v, h3, h4, by rw [← h5]; simp⟩
  · intro e
    have := congrArg Prod.fst (congrFun e 0)
    simp [exPos] at this
  · unfold Elem
    rw [h2]
    decide

end Verif.InterfaceTransfer
