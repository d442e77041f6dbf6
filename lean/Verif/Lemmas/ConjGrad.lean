import Verif.Model.ConjGrad
import Mathlib.LinearAlgebra.FiniteDimensional.Lemmas
import Mathlib.LinearAlgebra.Matrix.DotProduct
import Mathlib.Tactic.LinearCombination
import Mathlib.Tactic.FieldSimp
import Mathlib.Tactic.Positivity
import Mathlib.Tactic.Linarith
import Mathlib.Tactic.Module
import Mathlib.Algebra.Order.Star.Real

/-! # Invariants of the conjugate gradient loop -/

namespace Ellalgo

open Matrix

variable {n : ℕ}

theorem dot_self_nonneg (v : Vec n) : 0 ≤ v ⬝ᵥ v := by
  simpa [dotProduct] using Finset.sum_nonneg fun i _ => mul_self_nonneg (v i)

theorem dot_self_pos {v : Vec n} (hv : v ≠ 0) : 0 < v ⬝ᵥ v :=
  lt_of_le_of_ne (dot_self_nonneg v) fun h => hv (dotProduct_self_eq_zero.1 h.symm)

theorem symm_dot {A : Mat n} (hA : A.transpose = A) (u v : Vec n) : u ⬝ᵥ A *ᵥ v = (A *ᵥ u) ⬝ᵥ v := by
  rw [dotProduct_mulVec, ← mulVec_transpose, hA]

namespace CGState

/-- The residual is the residual of the current solution. -/
structure Exact (A : Mat n) (b : Vec n) (s : CGState n) : Prop where
  res : s.res = b - A *ᵥ s.sol
  rr : s.rr = s.res ⬝ᵥ s.res

theorem exact_init (A : Mat n) (b : Vec n) (x0 : Option (Vec n)) : Exact A b (init A b x0) :=
  ⟨rfl, rfl⟩

theorem exact_step {A : Mat n} {b : Vec n} {tol : ℝ} {s s' : CGState n} (h : Exact A b s)
    (hs : s.step A tol = .ok (.inr s')) : Exact A b s' := by
  unfold step at hs
  simp only at hs
  split_ifs at hs with h1 h2
  · simp at hs
  unfold pdiv at hs
  split_ifs at hs with h3
  simp only [Except.ok.injEq, Sum.inr.injEq] at hs
  subst hs
  refine ⟨?_, rfl⟩
  simp only [h.res, mulVec_add, mulVec_smul]
  abel

theorem exact_return {A : Mat n} {b : Vec n} {tol : ℝ} {s : CGState n} {x : Vec n} (h : Exact A b s)
    (hs : s.step A tol = .ok (.inl x)) : Real.sqrt ((b - A *ᵥ x) ⬝ᵥ (b - A *ᵥ x)) < tol := by
  unfold step at hs
  simp only at hs
  split_ifs at hs with h1 h2
  · simp only [Except.ok.injEq, Sum.inl.injEq] at hs
    have : b - A *ᵥ x = s.res - (s.rr / s.dir ⬝ᵥ A *ᵥ s.dir) • A *ᵥ s.dir := by
      rw [← hs, h.res]
      simp only [mulVec_add, mulVec_smul]
      abel
    rw [this]
    exact h2
  · unfold pdiv at hs
    split_ifs at hs
    simp at hs

/-- The Krylov invariant: `W` is the span of the directions used so far. -/
structure Krylov (A : Mat n) (V : Submodule ℝ (Vec n)) (W : Submodule ℝ (Vec n)) (s : CGState n) : Prop where
  le : W ≤ V
  mem : s.res ∈ V
  ne : s.res ≠ 0
  rr : s.rr = s.res ⬝ᵥ s.res
  orth : ∀ w ∈ W, s.res ⬝ᵥ w = 0
  conj : ∀ w ∈ W, s.dir ⬝ᵥ A *ᵥ w = 0
  diff : s.dir - s.res ∈ W
  image : ∀ w ∈ W, A *ᵥ w ∈ W ⊔ Submodule.span ℝ {s.dir}

theorem krylov_init {A : Mat n} {b : Vec n} {x0 : Option (Vec n)} {V : Submodule ℝ (Vec n)}
    (hm : b - A *ᵥ x0.getD 0 ∈ V) (h0 : b - A *ᵥ x0.getD 0 ≠ 0) : Krylov A V ⊥ (init A b x0) where
  le := bot_le
  mem := hm
  ne := h0
  rr := rfl
  orth := by simp
  conj := by simp
  diff := by simp [init]
  image := by simp

/-- One pass: the direction is not in the span, the new residual is orthogonal to the larger span, and if the loop goes on the invariant holds again. -/
theorem krylov_step {A : Mat n} {V W : Submodule ℝ (Vec n)} {s : CGState n} (hA : A.transpose = A)
    (hV : ∀ v ∈ V, A *ᵥ v ∈ V) (hpos : ∀ v ∈ V, v ≠ 0 → 0 < v ⬝ᵥ A *ᵥ v) (h : Krylov A V W s) :
    let res := s.res - (s.rr / s.dir ⬝ᵥ A *ᵥ s.dir) • A *ᵥ s.dir
    let W' := W ⊔ Submodule.span ℝ {s.dir}
    0 < s.dir ⬝ᵥ A *ᵥ s.dir ∧ s.dir ∉ W ∧ W' ≤ V ∧ res ∈ V ∧ (∀ w ∈ W', res ⬝ᵥ w = 0) ∧
      (res ≠ 0 → Krylov A V W'
        ⟨s.sol + (s.rr / s.dir ⬝ᵥ A *ᵥ s.dir) • s.dir, res, res + (res ⬝ᵥ res / s.rr) • s.dir, res ⬝ᵥ res⟩) := by
  intro res W'
  have hrr : 0 < s.rr := by rw [h.rr]; exact dot_self_pos h.ne
  have hrp : s.res ⬝ᵥ s.dir = s.rr := by
    have := h.orth _ h.diff
    rw [dotProduct_sub] at this
    rw [h.rr]
    linarith
  have hpV : s.dir ∈ V := by
    have := V.add_mem (h.le h.diff) h.mem
    simpa using this
  have hp0 : s.dir ≠ 0 := by
    intro h0
    rw [h0, dotProduct_zero] at hrp
    exact hrr.ne hrp
  have hq : 0 < s.dir ⬝ᵥ A *ᵥ s.dir := hpos _ hpV hp0
  have hpW : s.dir ∉ W := fun hm => hq.ne' (h.conj _ hm)
  have hW' : W' ≤ V := sup_le h.le ((Submodule.span_singleton_le_iff_mem _ _).2 hpV)
  have hresV : res ∈ V := V.sub_mem h.mem (V.smul_mem _ (hV _ hpV))
  set q := s.dir ⬝ᵥ A *ᵥ s.dir with hqdef
  have hWW' : W ≤ W' := le_sup_left
  have hpW' : s.dir ∈ W' := Submodule.mem_sup_right (Submodule.mem_span_singleton_self _)
  have hres : res = s.res - (s.rr / q) • A *ᵥ s.dir := rfl
  have horth : ∀ w ∈ W', res ⬝ᵥ w = 0 := by
    intro w hw
    obtain ⟨u, hu, v, hv, rfl⟩ := Submodule.mem_sup.1 hw
    obtain ⟨c, rfl⟩ := Submodule.mem_span_singleton.1 hv
    have h1 : res ⬝ᵥ u = 0 := by
      rw [hres, sub_dotProduct, h.orth u hu, smul_dotProduct, ← symm_dot hA, h.conj u hu]
      simp
    have h2 : res ⬝ᵥ s.dir = 0 := by
      rw [hres, sub_dotProduct, hrp, smul_dotProduct, ← symm_dot hA, ← hqdef, smul_eq_mul,
        div_mul_cancel₀ _ hq.ne', sub_self]
    rw [dotProduct_add, dotProduct_smul, h1, h2]
    simp
  refine ⟨hq, hpW, hW', hresV, horth, fun hne => ?_⟩
  have hAp : A *ᵥ s.dir = (q / s.rr) • (s.res - res) := by
    rw [hres, sub_sub_cancel, smul_smul, div_mul_div_cancel₀ hrr.ne', div_self hq.ne', one_smul]
  have hresW' : s.res ∈ W' := by
    have := W'.sub_mem hpW' (hWW' h.diff)
    simpa using this
  refine ⟨hW', hresV, hne, rfl, horth, ?_, ?_, ?_⟩
  · intro w hw
    obtain ⟨u, hu, v, hv, rfl⟩ := Submodule.mem_sup.1 hw
    obtain ⟨c, rfl⟩ := Submodule.mem_span_singleton.1 hv
    simp only
    have h1 : (res + (res ⬝ᵥ res / s.rr) • s.dir) ⬝ᵥ A *ᵥ u = 0 := by
      rw [add_dotProduct, smul_dotProduct, h.conj u hu, horth _ (h.image u hu)]
      simp
    have h2 : (res + (res ⬝ᵥ res / s.rr) • s.dir) ⬝ᵥ A *ᵥ s.dir = 0 := by
      rw [add_dotProduct, smul_dotProduct, ← hqdef, hAp, dotProduct_smul, dotProduct_sub, horth _ hresW']
      simp only [smul_eq_mul]
      ring
    rw [mulVec_add, mulVec_smul, dotProduct_add, dotProduct_smul, h1, h2]
    simp
  · simp only [add_sub_cancel_left]
    exact W'.smul_mem _ hpW'
  · intro w hw
    obtain ⟨u, hu, v, hv, rfl⟩ := Submodule.mem_sup.1 hw
    obtain ⟨c, rfl⟩ := Submodule.mem_span_singleton.1 hv
    simp only
    set W'' := W' ⊔ Submodule.span ℝ {res + (res ⬝ᵥ res / s.rr) • s.dir}
    have hW'' : W' ≤ W'' := le_sup_left
    have hnew : res ∈ W'' := by
      have h1 : res + (res ⬝ᵥ res / s.rr) • s.dir ∈ W'' :=
        Submodule.mem_sup_right (Submodule.mem_span_singleton_self _)
      have := W''.sub_mem h1 (hW'' (W'.smul_mem (res ⬝ᵥ res / s.rr) hpW'))
      simpa using this
    rw [mulVec_add, mulVec_smul, hAp]
    exact W''.add_mem (hW'' (h.image u hu))
      (W''.smul_mem _ (W''.smul_mem _ (W''.sub_mem (hW'' hresW') hnew)))

/-- The loop returns when the passes left cover the missing dimensions. -/
theorem krylov_loop {A : Mat n} {V : Submodule ℝ (Vec n)} {tol : ℝ} (htol : 0 < tol) (hA : A.transpose = A)
    (hV : ∀ v ∈ V, A *ᵥ v ∈ V) (hpos : ∀ v ∈ V, v ≠ 0 → 0 < v ⬝ᵥ A *ᵥ v) :
    ∀ (fuel : ℕ) (W : Submodule ℝ (Vec n)) (s : CGState n), Krylov A V W s →
      Module.finrank ℝ V ≤ Module.finrank ℝ W + fuel → ∃ x, s.loop A tol fuel = .ok x
  | 0, W, s, h, hf => by
    have hWV : W = V := Submodule.eq_of_le_of_finrank_le h.le (by simpa using hf)
    exact absurd (dotProduct_self_eq_zero.1 (h.orth _ (hWV ▸ h.mem))) h.ne
  | fuel + 1, W, s, h, hf => by
    obtain ⟨hq, hpW, hW', hresV, horth, hnext⟩ := krylov_step hA hV hpos h
    have hrr : 0 < s.rr := by rw [h.rr]; exact dot_self_pos h.ne
    by_cases hr : Real.sqrt ((s.res - (s.rr / s.dir ⬝ᵥ A *ᵥ s.dir) • A *ᵥ s.dir) ⬝ᵥ
        (s.res - (s.rr / s.dir ⬝ᵥ A *ᵥ s.dir) • A *ᵥ s.dir)) < tol
    · exact ⟨s.sol + (s.rr / s.dir ⬝ᵥ A *ᵥ s.dir) • s.dir, by simp only [loop, step, hq.ne', hr, if_true, if_false]⟩
    · have hne : s.res - (s.rr / s.dir ⬝ᵥ A *ᵥ s.dir) • A *ᵥ s.dir ≠ 0 := by
        intro h0
        rw [h0] at hr
        simp at hr
        linarith
      have hlt : Module.finrank ℝ W < Module.finrank ℝ ↥(W ⊔ Submodule.span ℝ {s.dir}) := by
        apply Submodule.finrank_lt_finrank_of_lt
        refine lt_of_le_of_ne le_sup_left fun he => hpW ?_
        rw [he]
        exact Submodule.mem_sup_right (Submodule.mem_span_singleton_self _)
      obtain ⟨x, hx⟩ := krylov_loop htol hA hV hpos fuel _ _ (hnext hne) (by omega)
      refine ⟨x, ?_⟩
      rw [loop]
      have : s.step A tol = .ok (.inr ⟨s.sol + (s.rr / s.dir ⬝ᵥ A *ᵥ s.dir) • s.dir,
          s.res - (s.rr / s.dir ⬝ᵥ A *ᵥ s.dir) • A *ᵥ s.dir,
          (s.res - (s.rr / s.dir ⬝ᵥ A *ᵥ s.dir) • A *ᵥ s.dir) +
            ((s.res - (s.rr / s.dir ⬝ᵥ A *ᵥ s.dir) • A *ᵥ s.dir) ⬝ᵥ
              (s.res - (s.rr / s.dir ⬝ᵥ A *ᵥ s.dir) • A *ᵥ s.dir) / s.rr) • s.dir,
          (s.res - (s.rr / s.dir ⬝ᵥ A *ᵥ s.dir) • A *ᵥ s.dir) ⬝ᵥ
              (s.res - (s.rr / s.dir ⬝ᵥ A *ᵥ s.dir) • A *ᵥ s.dir)⟩) := by
        simp only [step, hq.ne', hr, pdiv, hrr.ne', if_false]
      rw [this]
      exact hx

end CGState

end Ellalgo
