import Verif.Lemmas.ConjGrad
import Verif.Spec.ConjGrad
import Mathlib.LinearAlgebra.Matrix.Notation
import Mathlib.Tactic.FinCases
import Mathlib.Tactic.NormNum

/-! # C54-C56, C67: conjugate_gradient -/

namespace Ellalgo

open Matrix

variable {n : ℕ}

theorem Spec.SPD.transpose {A : Mat n} (h : Spec.SPD A) : A.transpose = A :=
  Matrix.ext fun i j => h.symm j i

theorem residualNorm_eq (A : Mat n) (b x : Vec n) :
    Spec.residualNorm A b x = Real.sqrt ((b - A *ᵥ x) ⬝ᵥ (b - A *ᵥ x)) := by
  unfold Spec.residualNorm dotProduct
  congr 1
  exact Finset.sum_congr rfl fun i _ => by rw [Pi.sub_apply, sq]

theorem CGState.loop_exact {A : Mat n} {b : Vec n} {tol : ℝ} {x : Vec n} :
    ∀ (fuel : ℕ) (s : CGState n), s.Exact A b → s.loop A tol fuel = .ok x → Spec.residualNorm A b x < tol
  | 0, s, _, hl => by simp [loop] at hl
  | fuel + 1, s, h, hl => by
    rw [loop] at hl
    match hs : s.step A tol with
    | .error f => rw [hs] at hl; simp at hl
    | .ok (.inl y) =>
      rw [hs] at hl
      simp only [Except.ok.injEq] at hl
      subst hl
      rw [residualNorm_eq]
      exact exact_return h hs
    | .ok (.inr s') =>
      rw [hs] at hl
      exact loop_exact fuel s' (exact_step h hs) hl

/-- **C54.** Whatever the matrix, a returned vector has a residual below the tolerance. -/
theorem C54_accuracy (A : Mat n) (b : Vec n) (x0 : Option (Vec n)) (tol : ℝ) (maxIter : ℕ) (x : Vec n)
    (h : conjugateGradient A b x0 tol maxIter = .ok x) : Spec.residualNorm A b x < tol :=
  CGState.loop_exact _ _ (CGState.exact_init A b x0) h

/-- **C54** in terms of the solution: if `A ≥ lam I` then a returned vector is within `tol / lam` of the solution. -/
theorem C54_error (A : Mat n) (b : Vec n) (x0 : Option (Vec n)) (tol : ℝ) (maxIter : ℕ) (x xs : Vec n) (lam : ℝ)
    (hlam : 0 < lam) (hA : ∀ v : Vec n, lam * (v ⬝ᵥ v) ≤ v ⬝ᵥ A *ᵥ v) (hxs : A *ᵥ xs = b)
    (h : conjugateGradient A b x0 tol maxIter = .ok x) : Real.sqrt (∑ i, (x i - xs i) ^ 2) < tol / lam := by
  have hr := C54_accuracy A b x0 tol maxIter x h
  have htol : 0 < tol := lt_of_le_of_lt (Real.sqrt_nonneg _) hr
  set d : Vec n := xs - x with hd
  have h1 : (∑ i, (x i - xs i) ^ 2) = d ⬝ᵥ d := by
    unfold dotProduct
    exact Finset.sum_congr rfl fun i _ => by rw [hd, Pi.sub_apply]; ring
  rw [residualNorm_eq, ← hxs, ← mulVec_sub, ← hd] at hr
  rw [h1, lt_div_iff₀ hlam]
  have h2 := hA d
  have h3 : d ⬝ᵥ A *ᵥ d ≤ Real.sqrt (d ⬝ᵥ d) * Real.sqrt ((A *ᵥ d) ⬝ᵥ (A *ᵥ d)) := by
    rw [← Real.sqrt_mul (dot_self_nonneg _)]
    refine Real.le_sqrt_of_sq_le ?_
    simpa [dotProduct, sq] using Finset.sum_mul_sq_le_sq_mul_sq Finset.univ d (A *ᵥ d)
  have h4 : d ⬝ᵥ d = Real.sqrt (d ⬝ᵥ d) * Real.sqrt (d ⬝ᵥ d) := (Real.mul_self_sqrt (dot_self_nonneg _)).symm
  rcases eq_or_lt_of_le (Real.sqrt_nonneg (d ⬝ᵥ d)) with h0 | h0
  · rw [← h0, zero_mul]; exact htol
  · have h5 : Real.sqrt (d ⬝ᵥ d) * (Real.sqrt (d ⬝ᵥ d) * lam) ≤ Real.sqrt (d ⬝ᵥ d) * Real.sqrt ((A *ᵥ d) ⬝ᵥ (A *ᵥ d)) := by
      refine le_trans (le_of_eq ?_) (h2.trans h3)
      rw [← mul_assoc, ← h4, mul_comm]
    exact lt_of_le_of_lt (le_of_mul_le_mul_left h5 h0) hr

/-- **C55**, general form: if `V` is a subspace mapped into itself by the symmetric matrix `A`, on which `A` is positive, and it contains the initial residual,
then `dim V` iterations are enough. (`A` itself may be singular; `V` spanned by `d` eigenvectors gives the bound by the number of
eigenvalues involved.) -/
theorem C55_invariant_subspace (A : Mat n) (b : Vec n) (x0 : Option (Vec n)) (tol : ℝ) (maxIter : ℕ)
    (V : Submodule ℝ (Vec n)) (hsymm : ∀ i j, A i j = A j i) (hV : ∀ v ∈ V, A *ᵥ v ∈ V)
    (hpos : ∀ v ∈ V, v ≠ 0 → 0 < v ⬝ᵥ A *ᵥ v) (hr0 : b - A *ᵥ x0.getD 0 ∈ V) (hne : b ≠ A *ᵥ x0.getD 0)
    (htol : 0 < tol) (hmax : Module.finrank ℝ V ≤ maxIter) :
    ∃ x, conjugateGradient A b x0 tol maxIter = .ok x ∧ Spec.residualNorm A b x < tol := by
  obtain ⟨x, hx⟩ := CGState.krylov_loop htol (Matrix.ext fun i j => hsymm j i) hV hpos maxIter ⊥ _
    (CGState.krylov_init hr0 (sub_ne_zero.2 hne)) (by simpa using hmax)
  exact ⟨x, hx, C54_accuracy A b x0 tol maxIter x hx⟩

/-- **C55.** For symmetric positive definite `A`, positive tolerance, an inexact initial guess and at least `n` iterations the call returns. -/
theorem C55_converges (A : Mat n) (b : Vec n) (x0 : Option (Vec n)) (tol : ℝ) (maxIter : ℕ) (hA : Spec.SPD A)
    (hne : b ≠ A *ᵥ x0.getD 0) (htol : 0 < tol) (hmax : n ≤ maxIter) :
    ∃ x, conjugateGradient A b x0 tol maxIter = .ok x ∧ Spec.residualNorm A b x < tol :=
  C55_invariant_subspace A b x0 tol maxIter ⊤ hA.symm (fun _ _ => trivial) (fun v _ hv => hA.pos v hv) trivial hne htol
    (by simpa using hmax)

/-- The matrix of `tests/test_conjugate_gradient.py:9`. -/
def sampleSPD : Mat 2 := !![4, 1; 1, 3]

theorem sampleSPD_spd : Spec.SPD sampleSPD := by
  refine ⟨fun i j => ?_, fun v hv => ?_⟩
  · fin_cases i <;> fin_cases j <;> simp [sampleSPD]
  · have h : v ⬝ᵥ sampleSPD *ᵥ v = 3 * v 0 ^ 2 + 2 * v 1 ^ 2 + (v 0 + v 1) ^ 2 := by
      simp [sampleSPD, dotProduct, mulVec, Fin.sum_univ_two]; ring
    rw [h]
    have : v 0 ≠ 0 ∨ v 1 ≠ 0 := by
      by_contra hc
      push Not at hc
      apply hv
      funext i
      fin_cases i
      · exact hc.1
      · exact hc.2
    rcases this with h0 | h0 <;> positivity

/-- The full claim **C56**: an exact initial guess is returned unchanged. -/
def C56_claim : Prop :=
  ∀ (n : ℕ) (A : Mat n) (b : Vec n) (x0 : Option (Vec n)) (tol : ℝ) (maxIter : ℕ), Spec.SPD A → 0 < tol → 1 ≤ maxIter →
    b = A *ᵥ x0.getD 0 → conjugateGradient A b x0 tol maxIter = .ok (x0.getD 0)

/-- What happens instead, whatever `A`: an exact initial guess always raises `ValueError`. -/
theorem C56_exact_guess_raises (A : Mat n) (b : Vec n) (x0 : Option (Vec n)) (tol : ℝ) (maxIter : ℕ)
    (h : b = A *ᵥ x0.getD 0) : conjugateGradient A b x0 tol maxIter = .error .valueError := by
  unfold conjugateGradient
  cases maxIter with
  | zero => rfl
  | succ k => simp [CGState.loop, CGState.step, CGState.init, ← h]

/-- **C56 is refuted**, by the positive definite matrix of the test suite with right-hand side zero and the default guess. -/
theorem C56_refuted : ¬ C56_claim := by
  intro h
  have h1 := h 2 sampleSPD 0 none 1 1 sampleSPD_spd one_pos le_rfl (by simp)
  rw [C56_exact_guess_raises _ _ _ _ _ (by simp)] at h1
  exact absurd h1 (by simp)

/-- The failure is not special to that system: it happens in every dimension, for every matrix and every guess. -/
theorem C56_refuted_everywhere (A : Mat n) (x0 : Vec n) (tol : ℝ) (maxIter : ℕ) :
    ¬ ∃ x, conjugateGradient A (A *ᵥ x0) (some x0) tol maxIter = .ok x := by
  rintro ⟨x, hx⟩
  rw [C56_exact_guess_raises A (A *ᵥ x0) (some x0) tol maxIter rfl] at hx
  exact absurd hx (by simp)

/-- **C56**, exact characterisation of the failures: for positive definite `A`, positive tolerance and at least `n` iterations the call fails
precisely on exact initial guesses. -/
theorem C56_raises_iff (A : Mat n) (b : Vec n) (x0 : Option (Vec n)) (tol : ℝ) (maxIter : ℕ) (hA : Spec.SPD A)
    (htol : 0 < tol) (hmax : n ≤ maxIter) :
    (∃ f, conjugateGradient A b x0 tol maxIter = .error f) ↔ b = A *ᵥ x0.getD 0 := by
  constructor
  · rintro ⟨f, hf⟩
    by_contra hne
    obtain ⟨x, hx, -⟩ := C55_converges A b x0 tol maxIter hA hne htol hmax
    rw [hf] at hx
    exact absurd hx (by simp)
  · exact fun h => ⟨_, C56_exact_guess_raises A b x0 tol maxIter h⟩

/-! ## C67: the functional specification -/

theorem energy_sub (A : Mat n) (hA : A.transpose = A) (b x y : Vec n) :
    Spec.energy A b y - Spec.energy A b x = (y - x) ⬝ᵥ A *ᵥ (y - x) - 2 * ((b - A *ᵥ x) ⬝ᵥ (y - x)) := by
  unfold Spec.energy
  have h1 : x ⬝ᵥ A *ᵥ y = y ⬝ᵥ A *ᵥ x := by rw [symm_dot hA, dotProduct_comm]
  simp only [mulVec_sub, dotProduct_sub, sub_dotProduct, dotProduct_comm (A *ᵥ x)]
  rw [h1]
  ring

theorem isKrylovMin_unique {A : Mat n} (hA : Spec.SPD A) {b x0 x y : Vec n} {k : ℕ}
    (hx : Spec.IsKrylovMin A b x0 k x) (hy : Spec.IsKrylovMin A b x0 k y) : x = y := by
  by_contra hne
  have hp := hA.pos (y - x) (sub_ne_zero.2 (Ne.symm hne))
  set m : Vec n := x + (1 / 2 : ℝ) • (y - x) with hm
  have hmem : m - x0 ∈ Spec.krylov A (b - A *ᵥ x0) k := by
    have : m - x0 = (x - x0) + (1 / 2 : ℝ) • ((y - x0) - (x - x0)) := by rw [hm]; module
    rw [this]
    exact Submodule.add_mem _ hx.mem (Submodule.smul_mem _ _ (Submodule.sub_mem _ hy.mem hx.mem))
  have h1 := hx.min m hmem
  have h2 := hy.min x hx.mem
  have h3 := energy_sub A hA.transpose b x m
  have h4 := energy_sub A hA.transpose b x y
  rw [hm, add_sub_cancel_left, ← hm] at h3
  simp only [mulVec_smul, dotProduct_smul, smul_dotProduct, smul_eq_mul] at h3
  linarith

theorem krylov_mono_mulVec (A : Mat n) (v : Vec n) (k : ℕ) {w : Vec n} (hw : w ∈ Spec.krylov A v k) :
    A *ᵥ w ∈ Spec.krylov A v (k + 1) := by
  unfold Spec.krylov at hw
  induction hw using Submodule.span_induction with
  | mem u hu =>
    obtain ⟨i, hi, rfl⟩ := hu
    exact Submodule.subset_span ⟨i + 1, by omega, by rw [mulVec_mulVec, ← pow_succ']⟩
  | zero => rw [mulVec_zero]; exact Submodule.zero_mem _
  | add u v _ _ h1 h2 => rw [mulVec_add]; exact Submodule.add_mem _ h1 h2
  | smul c u _ h => rw [mulVec_smul]; exact Submodule.smul_mem _ _ h

theorem krylov_le_succ (A : Mat n) (v : Vec n) (k : ℕ) : Spec.krylov A v k ≤ Spec.krylov A v (k + 1) :=
  Submodule.span_mono fun _ ⟨i, hi, h⟩ => ⟨i, by omega, h⟩

/-- What holds at the start of pass `k + 1`. -/
structure CGState.At (A : Mat n) (b x0 : Vec n) (k : ℕ) (s : CGState n) : Prop where
  exact : s.Exact A b
  kry : s.Krylov A ⊤ (Spec.krylov A (b - A *ᵥ x0) k)
  sol : s.sol - x0 ∈ Spec.krylov A (b - A *ᵥ x0) k
  dir : s.dir ∈ Spec.krylov A (b - A *ᵥ x0) (k + 1)
  low : ∀ v ∈ Spec.krylov A (b - A *ᵥ x0) (k + 1),
    v ∈ Spec.krylov A (b - A *ᵥ x0) k ⊔ Submodule.span ℝ {s.dir}

theorem CGState.at_init (A : Mat n) (b x0 : Vec n) (hne : b ≠ A *ᵥ x0) : (init A b (some x0)).At A b x0 0 := by
  have h0 : Spec.krylov A (b - A *ᵥ x0) 0 = ⊥ := by simp [Spec.krylov]
  have h1 : Spec.krylov A (b - A *ᵥ x0) 1 = Submodule.span ℝ {b - A *ᵥ x0} := by
    unfold Spec.krylov
    congr 1
    ext w
    constructor
    · rintro ⟨i, hi, rfl⟩
      have : i = 0 := by omega
      subst this
      simp
    · rintro rfl
      exact ⟨0, one_pos, by simp⟩
  refine ⟨exact_init A b (some x0), ?_, ?_, ?_, ?_⟩
  · rw [h0]
    exact krylov_init trivial (sub_ne_zero.2 hne)
  · rw [h0]; simp [init]
  · rw [zero_add, h1]; exact Submodule.mem_span_singleton_self _
  · intro v hv
    rw [zero_add, h1] at hv
    exact Submodule.mem_sup_right hv

/-- A point in `x0 + krylov k` with residual orthogonal to the Krylov space is the minimiser. -/
theorem isKrylovMin_of_orth {A : Mat n} (hA : Spec.SPD A) {b x0 x : Vec n} {k : ℕ}
    (hmem : x - x0 ∈ Spec.krylov A (b - A *ᵥ x0) k)
    (horth : ∀ w ∈ Spec.krylov A (b - A *ᵥ x0) k, (b - A *ᵥ x) ⬝ᵥ w = 0) : Spec.IsKrylovMin A b x0 k x := by
  refine ⟨hmem, fun y hy => ?_⟩
  have h1 := energy_sub A hA.transpose b x y
  have h2 : y - x = (y - x0) - (x - x0) := by abel
  rw [horth (y - x) (h2 ▸ Submodule.sub_mem _ hy hmem)] at h1
  have h3 : 0 ≤ (y - x) ⬝ᵥ A *ᵥ (y - x) := by
    by_cases h : y - x = 0
    · rw [h]; simp
    · exact (hA.pos _ h).le
  linarith

/-- One pass produces the next Krylov minimiser, and returns it precisely if its residual is below the tolerance. -/
theorem CGState.at_step {A : Mat n} (hA : Spec.SPD A) {b x0 : Vec n} {tol : ℝ} (htol : 0 < tol) {k : ℕ} {s : CGState n}
    (h : s.At A b x0 k) :
    ∃ x, Spec.IsKrylovMin A b x0 (k + 1) x ∧
      ((Spec.residualNorm A b x < tol ∧ s.step A tol = .ok (.inl x)) ∨
       (tol ≤ Spec.residualNorm A b x ∧ ∃ s', s.step A tol = .ok (.inr s') ∧ s'.At A b x0 (k + 1))) := by
  obtain ⟨hq, hpW, -, -, horth, hnext⟩ :=
    krylov_step (V := ⊤) hA.transpose (fun _ _ => trivial) (fun v _ hv => hA.pos v hv) h.kry
  have hrr : 0 < s.rr := by rw [h.exact.rr]; exact dot_self_pos h.kry.ne
  have hle : Spec.krylov A (b - A *ᵥ x0) k ⊔ Submodule.span ℝ {s.dir} = Spec.krylov A (b - A *ᵥ x0) (k + 1) :=
    le_antisymm (sup_le (krylov_le_succ _ _ _) ((Submodule.span_singleton_le_iff_mem _ _).2 h.dir)) fun v hv => h.low v hv
  rw [hle] at horth hnext
  set q := s.dir ⬝ᵥ A *ᵥ s.dir with hqd
  set x := s.sol + (s.rr / q) • s.dir with hx
  have hres : s.res - (s.rr / q) • A *ᵥ s.dir = b - A *ᵥ x := by
    rw [hx, h.exact.res, mulVec_add, mulVec_smul]; abel
  rw [hres] at horth hnext
  have hmem : x - x0 ∈ Spec.krylov A (b - A *ᵥ x0) (k + 1) := by
    have : x - x0 = (s.sol - x0) + (s.rr / q) • s.dir := by rw [hx]; abel
    rw [this]
    exact Submodule.add_mem _ (krylov_le_succ _ _ _ h.sol) (Submodule.smul_mem _ _ h.dir)
  refine ⟨x, isKrylovMin_of_orth hA hmem horth, ?_⟩
  have hst : s.step A tol = if Real.sqrt ((b - A *ᵥ x) ⬝ᵥ (b - A *ᵥ x)) < tol then .ok (.inl x) else
      .ok (.inr ⟨x, b - A *ᵥ x, (b - A *ᵥ x) + ((b - A *ᵥ x) ⬝ᵥ (b - A *ᵥ x) / s.rr) • s.dir, (b - A *ᵥ x) ⬝ᵥ (b - A *ᵥ x)⟩) := by
    unfold step pdiv
    simp only [← hqd, hq.ne', hrr.ne', if_false, ← hx, hres]
  rw [residualNorm_eq]
  by_cases hr : Real.sqrt ((b - A *ᵥ x) ⬝ᵥ (b - A *ᵥ x)) < tol
  · exact .inl ⟨hr, by rw [hst, if_pos hr]⟩
  · refine .inr ⟨not_lt.1 hr, _, by rw [hst, if_neg hr], ?_⟩
    have hne : b - A *ᵥ x ≠ 0 := by
      intro h0
      rw [h0] at hr
      simp at hr
      linarith
    have hk := hnext hne
    have hd : (b - A *ᵥ x) + ((b - A *ᵥ x) ⬝ᵥ (b - A *ᵥ x) / s.rr) • s.dir ∈ Spec.krylov A (b - A *ᵥ x0) (k + 1 + 1) := by
      refine Submodule.add_mem _ ?_ (Submodule.smul_mem _ _ (krylov_le_succ _ _ _ h.dir))
      rw [← hres]
      refine Submodule.sub_mem _ ?_ (Submodule.smul_mem _ _ (krylov_mono_mulVec _ _ _ h.dir))
      have h5 := Submodule.sub_mem _ (krylov_le_succ _ _ _ h.dir) (krylov_le_succ _ _ _ (krylov_le_succ _ _ _ h.kry.diff))
      simpa using h5
    refine ⟨⟨rfl, rfl⟩, hk, hmem, hd, fun v hv => ?_⟩
    -- the next Krylov space is spanned by the current one and the image of the current one
    have hgen : ∀ v ∈ Spec.krylov A (b - A *ᵥ x0) (k + 1 + 1),
        v ∈ Spec.krylov A (b - A *ᵥ x0) (k + 1) ⊔ Submodule.span ℝ {(b - A *ᵥ x) + ((b - A *ᵥ x) ⬝ᵥ (b - A *ᵥ x) / s.rr) • s.dir} := by
      intro v hv
      refine (Submodule.span_le (p := Spec.krylov A (b - A *ᵥ x0) (k + 1) ⊔
        Submodule.span ℝ {(b - A *ᵥ x) + ((b - A *ᵥ x) ⬝ᵥ (b - A *ᵥ x) / s.rr) • s.dir})).2 ?_ hv
      rintro w ⟨i, hi, rfl⟩
      by_cases hi' : i < k + 1
      · exact Submodule.mem_sup_left (Submodule.subset_span ⟨i, hi', rfl⟩)
      · have : i = k + 1 := by omega
        subst this
        rw [pow_succ', ← mulVec_mulVec]
        exact hk.image _ (Submodule.subset_span ⟨k, by omega, rfl⟩)
    exact hgen v hv

/-- The loop from pass `k + 1` on. -/
theorem CGState.at_loop {A : Mat n} (hA : Spec.SPD A) {b x0 : Vec n} {tol : ℝ} (htol : 0 < tol) :
    ∀ (fuel k : ℕ) (s : CGState n), s.At A b x0 k →
      (∃ j x, k < j ∧ j ≤ k + fuel ∧ s.loop A tol fuel = .ok x ∧ Spec.IsKrylovMin A b x0 j x ∧
        Spec.residualNorm A b x < tol ∧
        ∀ i y, k < i → i < j → Spec.IsKrylovMin A b x0 i y → tol ≤ Spec.residualNorm A b y) ∨
      (s.loop A tol fuel = .error .valueError ∧
        ∀ i y, k < i → i ≤ k + fuel → Spec.IsKrylovMin A b x0 i y → tol ≤ Spec.residualNorm A b y)
  | 0, k, s, _ => .inr ⟨rfl, fun i y h1 h2 => by omega⟩
  | fuel + 1, k, s, h => by
    obtain ⟨x, hx, ⟨hr, hs⟩ | ⟨hr, s', hs, hat⟩⟩ := at_step hA htol h
    · exact .inl ⟨k + 1, x, by omega, by omega, by rw [loop, hs], hx, hr, fun i y h1 h2 => by omega⟩
    · rcases at_loop hA htol fuel (k + 1) s' hat with ⟨j, z, h1, h2, h3, h4, h5, h6⟩ | ⟨h3, h6⟩
      · refine .inl ⟨j, z, by omega, by omega, by rw [loop, hs]; exact h3, h4, h5, fun i y hi hj hy => ?_⟩
        rcases Nat.lt_or_ge (k + 1) i with hi' | hi'
        · exact h6 i y hi' hj hy
        · have : i = k + 1 := by omega
          subst this
          rwa [isKrylovMin_unique hA hy hx]
      · refine .inr ⟨by rw [loop, hs]; exact h3, fun i y hi hj hy => ?_⟩
        rcases Nat.lt_or_ge (k + 1) i with hi' | hi'
        · exact h6 i y hi' (by omega) hy
        · have : i = k + 1 := by omega
          subst this
          rwa [isKrylovMin_unique hA hy hx]

/-- **C67.** For positive definite `A`, positive tolerance and an inexact initial guess: the call returns `x` if and only if `x` is the first Krylov minimiser
(within the iteration limit) whose residual is below the tolerance. -/
theorem C67_returns_iff (A : Mat n) (b x0 : Vec n) (tol : ℝ) (maxIter : ℕ) (hA : Spec.SPD A) (htol : 0 < tol)
    (hne : b ≠ A *ᵥ x0) (x : Vec n) :
    conjugateGradient A b (some x0) tol maxIter = .ok x ↔
      ∃ k, 1 ≤ k ∧ k ≤ maxIter ∧ Spec.IsKrylovMin A b x0 k x ∧ Spec.residualNorm A b x < tol ∧
        ∀ j y, 1 ≤ j → j < k → Spec.IsKrylovMin A b x0 j y → tol ≤ Spec.residualNorm A b y := by
  rcases CGState.at_loop hA htol maxIter 0 _ (CGState.at_init A b x0 hne) with ⟨j, z, h1, h2, h3, h4, h5, h6⟩ | ⟨h3, h6⟩
  · constructor
    · intro h
      have hz : z = x := by
        unfold conjugateGradient at h
        rw [h3] at h
        simpa using h
      subst hz
      exact ⟨j, h1, by omega, h4, h5, h6⟩
    · rintro ⟨k, k1, k2, k3, k4, k5⟩
      have hkj : k = j := by
        rcases lt_trichotomy k j with hlt | heq | hgt
        · exact absurd (h6 k x k1 hlt k3) (not_le.2 k4)
        · exact heq
        · exact absurd (k5 j z h1 hgt h4) (not_le.2 h5)
      subst hkj
      rw [isKrylovMin_unique hA k3 h4]
      exact h3
  · constructor
    · intro h
      unfold conjugateGradient at h
      rw [h3] at h
      exact absurd h (by simp)
    · rintro ⟨k, k1, k2, k3, k4, -⟩
      exact absurd (h6 k x k1 (by omega) k3) (not_le.2 k4)

/-- **C67**, the other outcome: `ValueError`, precisely if no Krylov minimiser within the limit is accurate enough. -/
theorem C67_raises_iff (A : Mat n) (b x0 : Vec n) (tol : ℝ) (maxIter : ℕ) (hA : Spec.SPD A) (htol : 0 < tol)
    (hne : b ≠ A *ᵥ x0) :
    conjugateGradient A b (some x0) tol maxIter = .error .valueError ↔
      ∀ k x, 1 ≤ k → k ≤ maxIter → Spec.IsKrylovMin A b x0 k x → tol ≤ Spec.residualNorm A b x := by
  rcases CGState.at_loop hA htol maxIter 0 _ (CGState.at_init A b x0 hne) with ⟨j, z, h1, h2, h3, h4, h5, h6⟩ | ⟨h3, h6⟩
  · constructor
    · intro h
      unfold conjugateGradient at h
      rw [h3] at h
      exact absurd h (by simp)
    · intro h
      exact absurd (h j z h1 (by omega) h4) (not_le.2 h5)
  · exact ⟨fun _ k x k1 k2 k3 => h6 k x k1 (by omega) k3, fun _ => h3⟩

/-- The hypotheses of C54, C55, C56 and C67 are met by the system of the test suite with the default guess. -/
example : ∃ x, conjugateGradient sampleSPD ![1, 2] none (1 / 100000) 1000 = .ok x ∧
    Spec.residualNorm sampleSPD ![1, 2] x < 1 / 100000 :=
  C55_converges _ _ _ _ _ sampleSPD_spd (by simp) (by norm_num) (by norm_num)

/-- A singular system covered by the subspace form: `A = diag(1, 0)`, `V` the first axis. -/
example : ∃ x, conjugateGradient !![1, 0; 0, 0] ![5, 0] none (1 / 100000) 1 = .ok x ∧
    Spec.residualNorm !![1, 0; 0, 0] ![5, 0] x < 1 / 100000 := by
  refine C55_invariant_subspace _ _ _ _ _ (Submodule.span ℝ {![1, 0]}) ?_ ?_ ?_ ?_ ?_ (by norm_num) ?_
  · intro i j; fin_cases i <;> fin_cases j <;> simp
  · intro v hv
    obtain ⟨c, rfl⟩ := Submodule.mem_span_singleton.1 hv
    refine Submodule.mem_span_singleton.2 ⟨c, ?_⟩
    funext i
    fin_cases i <;> simp [mulVec, dotProduct, Fin.sum_univ_two]
  · intro v hv h0
    obtain ⟨c, rfl⟩ := Submodule.mem_span_singleton.1 hv
    have : c ≠ 0 := fun hc => h0 (by simp [hc])
    simp only [mulVec, dotProduct, Fin.sum_univ_two]
    simp
    positivity
  · refine Submodule.mem_span_singleton.2 ⟨5, ?_⟩
    funext i
    fin_cases i <;> simp
  · simp
  · exact finrank_span_singleton (K := ℝ) (v := (![1, 0] : Vec 2)) (by simp) |>.le

end Ellalgo
