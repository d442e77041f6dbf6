import Verif.Lemmas.Weak
import Verif.Props.Containment
import Verif.Props.Volume
import Mathlib.Analysis.Matrix.Spectrum
import Mathlib.Analysis.SpecialFunctions.Log.Basic

/-! # One iteration on a set with interior -/

namespace Ellalgo

open Matrix Spec EllCalcCore

variable {n : ℕ}

/-- A symmetric matrix whose quadratic form is at least `c|v|²` has determinant at least `cⁿ`. -/
theorem det_ge_of_quad_ge {A : Mat n} (hA : A.IsHermitian) {c : ℝ} (hc : 0 ≤ c)
    (h : ∀ v : Vec n, c * (v ⬝ᵥ v) ≤ v ⬝ᵥ (A *ᵥ v)) : c ^ n ≤ A.det := by
  have he : ∀ i, c ≤ hA.eigenvalues i := by
    intro i
    have h1 := h (hA.eigenvectorBasis i).ofLp
    have h2 := hA.eigenvalues_eq i
    have h3 : (hA.eigenvectorBasis i).ofLp ⬝ᵥ (hA.eigenvectorBasis i).ofLp = 1 := by
      have h4 := hA.eigenvectorBasis.orthonormal.1 i
      rw [EuclideanSpace.norm_eq, Real.sqrt_eq_one] at h4
      rw [← h4]
      simp [dotProduct, pow_two]
    rw [h3, mul_one] at h1
    rw [h2]
    simpa using h1
  rw [hA.det_eq_prod_eigenvalues]
  have : c ^ n = ∏ _i : Fin n, c := by simp
  rw [this]
  exact Finset.prod_le_prod (fun _ _ => hc) (fun i _ => he i)

theorem mem_ball_center {c : Vec n} {r : ℝ} : c ∈ ball c r := by
  simp [ball, sq_nonneg]

theorem mem_ball_shift {c v : Vec n} {r : ℝ} (hv : 0 < v ⬝ᵥ v) (s : ℝ) (hs : s ^ 2 ≤ r ^ 2) :
    c + (s / Real.sqrt (v ⬝ᵥ v)) • v ∈ ball c r := by
  have h2 : Real.sqrt (v ⬝ᵥ v) ^ 2 = v ⬝ᵥ v := Real.sq_sqrt hv.le
  have h3 := Real.sqrt_pos.mpr hv
  simp only [ball, Set.mem_ofPred_eq, add_sub_cancel_left, smul_dotProduct, dotProduct_smul, smul_eq_mul]
  have : s / Real.sqrt (v ⬝ᵥ v) * (s / Real.sqrt (v ⬝ᵥ v) * (v ⬝ᵥ v)) = s ^ 2 := by
    rw [← mul_assoc, div_mul_div_comm, ← pow_two, ← pow_two, h2]
    field_simp
  rw [this]; exact hs

theorem dot_self_pos {v : Vec n} (hv : v ≠ 0) : 0 < v ⬝ᵥ v :=
  lt_of_le_of_ne (Finset.sum_nonneg fun _ _ => mul_self_nonneg _) fun h => hv (dotProduct_self_eq_zero.mp h.symm)

/-- An ellipsoid that contains a ball of radius `r` has width at least `r` in every direction. -/
theorem width_of_ball {M : Mat n} {κ r : ℝ} {xc c : Vec n} (h : ball c r ⊆ supportSet M κ xc) (v : Vec n) :
    r ^ 2 * (v ⬝ᵥ v) ≤ κ * (v ⬝ᵥ (M *ᵥ v)) := by
  by_cases hv : v = 0
  · subst hv; simp
  have hp := dot_self_pos hv
  have h2 : Real.sqrt (v ⬝ᵥ v) ^ 2 = v ⬝ᵥ v := Real.sq_sqrt hp.le
  have h3 := Real.sqrt_pos.mpr hp
  have key : ∀ s, s ^ 2 ≤ r ^ 2 → (v ⬝ᵥ (c - xc) + s * Real.sqrt (v ⬝ᵥ v)) ^ 2 ≤ κ * (v ⬝ᵥ (M *ᵥ v)) := by
    intro s hs
    have := h (mem_ball_shift (c := c) hp s hs) v
    have e1 : v ⬝ᵥ (c + (s / Real.sqrt (v ⬝ᵥ v)) • v - xc) = v ⬝ᵥ (c - xc) + s * Real.sqrt (v ⬝ᵥ v) := by
      rw [add_sub_right_comm, dotProduct_add, dotProduct_smul, smul_eq_mul]
      congr 1
      rw [div_mul_eq_mul_div, div_eq_iff h3.ne', mul_assoc, ← pow_two, h2]
    rwa [e1] at this
  have a := key r le_rfl
  have b := key (-r) (by simp)
  have e2 : r ^ 2 * (v ⬝ᵥ v) = (r * Real.sqrt (v ⬝ᵥ v)) ^ 2 := by rw [mul_pow, h2]
  rw [e2]
  nlinarith [sq_nonneg (v ⬝ᵥ (c - xc))]

namespace EllCalc

variable {u : Bool}

theorem calcBiasCut_total {β tsq : ℝ} (h0 : 0 ≤ β) (ht : 0 < tsq) (f : Fault) :
    (std n u).calcBiasCut β tsq ≠ .error f := by
  rcases lt_or_ge tsq (β * β) with h | h
  · rw [calcBiasCut_noSoln h0 h]; simp
  · rw [calcBiasCut_success h0 ht h]; simp

theorem calcSingleOrParallel_total {cut : CutChoice} {tsq : ℝ} (hn : 2 ≤ n) (h0 : cut.Deep) (ht : 0 < tsq) (f : Fault) :
    (std n u).calcSingleOrParallel cut tsq ≠ .error f := by
  match cut, h0 with
  | .scalar b, h0 => exact calcBiasCut_total h0 ht f
  | .seq [some b], h0 =>
    simp only [calcSingleOrParallel, List.length_singleton, Nat.one_lt_ofNat, true_or, if_true,
      firstOffset, except_ok_bind]
    exact calcBiasCut_total h0 ht f
  | .seq (some b0 :: some b1 :: l), h0 =>
    have h0' : 0 ≤ b0 := h0
    intro h
    simp [calcSingleOrParallel, firstOffset] at h
    split_ifs at h
    · exact calcBiasCut_total h0 ht f h
    · by_cases h1 : b1 < b0
      · unfold calcParallel at h; rw [if_pos h1] at h; cases h
      by_cases h2 : b1 > 0 ∧ tsq ≤ b1 * b1
      · unfold calcParallel at h; rw [if_neg h1] at h; simp only at h; rw [if_pos h2] at h
        exact calcBiasCut_total h0 ht f h
      · have : 0 ≤ b1 := h0'.trans (not_lt.mp h1)
        rw [calcParallel_success hn (not_lt.mp h1) h2 ht (by positivity)] at h
        cases h

theorem calcCentral_total {cut : CutChoice} {tsq : ℝ} (hn : 2 ≤ n) (h0 : cut.CentralShape) (ht : 0 < tsq) (f : Fault) :
    (std n u).calcSingleOrParallelCentralCut cut tsq ≠ .error f := by
  have hn2 : (2 : ℝ) ≤ n := by exact_mod_cast hn
  have hc : (do
      let tau ← psqrt tsq
      Except.ok (CutStatus.success, some ((std n u).helper.calcCentralCut tau)) : StrategyResult) ≠
        .error f := by
    rw [psqrt_ok ht.le]; simp
  match cut, h0 with
  | .scalar b, _ => exact hc
  | .seq [], _ => simpa [calcSingleOrParallelCentralCut] using hc
  | .seq [_], _ => simpa [calcSingleOrParallelCentralCut] using hc
  | .seq (_ :: some b1 :: l), _ =>
    intro h
    simp only [calcSingleOrParallelCentralCut] at h
    split_ifs at h
    · exact hc h
    · simp only [List.getElem?_cons_succ, List.getElem?_cons_zero] at h
      split_ifs at h with h1 h2
      · exact hc h
      · have e := calcParallelCentralCut_std (n := (n : ℝ)) hn2 ht (not_le.mp h2).le
        simp only [std] at h
        rw [e] at h
        cases h

end EllCalc

theorem CutChoice.Deep.firstNonneg {c : CutChoice} (h : c.Deep) : c.FirstNonneg := by
  match c, h with
  | .scalar b, h => exact h
  | .seq [some b], h => intro x hx; simp at hx; rw [← hx]; exact h
  | .seq (some b0 :: some b1 :: l), h => intro x hx; simp at hx; rw [← hx]; exact h

namespace Ell

/-- Sound parameters, a set with interior inside: everything stays legitimate. -/
theorem ball_step {e : Ell n} (he : e.WF) {F : Set (Vec n)} {c : Vec n} {r : ℝ} (hr : 0 < r)
    (hball : ball c r ⊆ F) (hF : F ⊆ e.region) {g : Vec n} (hg : g ≠ 0) {keeps : ℝ → Prop} {p : Params}
    (hp : EllCalc.ParamsSound keeps (e.kappa * e.omega g) p) (hk : ∀ x ∈ F, keeps (g ⬝ᵥ (x - e.xc))) :
    (e.applied g p).WF ∧ F ⊆ (e.applied g p).region := by
  have h1 : c ∈ F := hball mem_ball_center
  have hgp := dot_self_pos hg
  have h2 : c + (r / Real.sqrt (g ⬝ᵥ g)) • g ∈ F := hball (mem_ball_shift hgp r le_rfl)
  have hwf := applied_WF_of_width he hg hp (hF h1) (hF h2) (hk _ h1) (hk _ h2) (by
    rw [dotProduct_add, dotProduct_smul, smul_eq_mul]
    have : 0 < r / Real.sqrt (g ⬝ᵥ g) * (g ⬝ᵥ g) := by
      have := Real.sqrt_pos.mpr hgp
      positivity
    linarith)
  refine ⟨hwf, fun x hx => ?_⟩
  rw [hwf.region_eq_hull]
  exact applied_contains he hg hp (hF hx) (hk x hx)

theorem tsq_ge_of_ball {e : Ell n} (he : e.WF) {F : Set (Vec n)} {c : Vec n} {r : ℝ}
    (hball : ball c r ⊆ F) (hF : F ⊆ e.region) {g : Vec n} (hg1 : 1 ≤ g ⬝ᵥ g) :
    r ^ 2 ≤ e.kappa * e.omega g := by
  rw [he.region_eq_hull] at hF
  have := width_of_ball (hball.trans hF) g
  have h2 : e.kappa * (g ⬝ᵥ (e.mq *ᵥ g)) = e.kappa * e.omega g := rfl
  nlinarith [sq_nonneg r]

theorem ne_zero_of_one_le {g : Vec n} (hg1 : 1 ≤ g ⬝ᵥ g) : g ≠ 0 := by
  rintro rfl; simp at hg1; linarith

/-- A bias cut of a regular oracle succeeds. -/
theorem regular_bias {e : Ell n} (he : e.WF) {F : Set (Vec n)} {c : Vec n} {r : ℝ} (hr : 0 < r)
    (hball : ball c r ⊆ F) (hF : F ⊆ e.region) {cut : Cut n} (h0 : cut.2.Deep) (hg1 : 1 ≤ cut.1 ⬝ᵥ cut.1)
    (hk : F ⊆ keptSet cut e.xc) :
    ∃ e', e.updateBiasCut cut = (e', .ok .success) ∧ e'.WF ∧ F ⊆ e'.region ∧ r ^ 2 ≤ e'.tsq ∧
      (e'.kappa • e'.mq).det ≤ Real.exp (-1 / ((n : ℝ) + 1)) * (e.kappa • e.mq).det := by
  obtain ⟨hn, hh⟩ := he.built.helper_eq
  have hg := ne_zero_of_one_le hg1
  have hω := he.omega_pos hg
  have ht : 0 < e.kappa * e.omega cut.1 := mul_pos he.kappa_pos hω
  have hc : c ∈ F := hball mem_ball_center
  have hs : e.updateBiasCut cut = _ := updateCore_eq (β := cut.2) hg hω.ne' e.helper.calcSingleOrParallel
  rcases hx : e.helper.calcSingleOrParallel cut.2 (e.kappa * e.omega cut.1) with f | ⟨st, _ | p⟩
  · rw [hh] at hx; exact (EllCalc.calcSingleOrParallel_total hn h0 ht f hx).elim
  · exact ((EllCalc.calcSingleOrParallel_none hx).2 _ (sq_le_tsq he (hF hc) _) (hk hc)).elim
  · have hx' := hx
    rw [hh] at hx'
    have hη := EllCalc.etaOK_of_firstNonneg (n := n) h0.firstNonneg ht.le
      ⟨_, sq_le_tsq he (hF hc) cut.1, hk hc⟩
    obtain ⟨rfl, hsound⟩ := EllCalc.calcSingleOrParallel_sound hn ht hη hx'
    have hup : e.updateBiasCut cut = (e.applied cut.1 p, .ok .success) := by rw [hs, hx]
    obtain ⟨w1, w2⟩ := ball_step he hr hball hF hg hsound (fun x hx => hk hx)
    exact ⟨_, hup, w1, w2, tsq_ge_of_ball he hball hF hg1,
      C07_volume_reduction e he .bias cut _ h0.firstNonneg hup⟩

/-- A central cut of a regular oracle succeeds. -/
theorem regular_central {e : Ell n} (he : e.WF) {F : Set (Vec n)} {c : Vec n} {r : ℝ} (hr : 0 < r)
    (hball : ball c r ⊆ F) (hF : F ⊆ e.region) {cut : Cut n} (h0 : cut.2.CentralShape)
    (hg1 : 1 ≤ cut.1 ⬝ᵥ cut.1) (hk : F ⊆ keptSetCentral cut e.xc) :
    ∃ e', e.updateCentralCut cut = (e', .ok .success) ∧ e'.WF ∧ F ⊆ e'.region ∧ r ^ 2 ≤ e'.tsq ∧
      (e'.kappa • e'.mq).det ≤ Real.exp (-1 / ((n : ℝ) + 1)) * (e.kappa • e.mq).det := by
  obtain ⟨hn, hh⟩ := he.built.helper_eq
  have hg := ne_zero_of_one_le hg1
  have hω := he.omega_pos hg
  have ht : 0 < e.kappa * e.omega cut.1 := mul_pos he.kappa_pos hω
  have hc : c ∈ F := hball mem_ball_center
  have hs : e.updateCentralCut cut = _ := updateCore_eq (β := cut.2) hg hω.ne' e.helper.calcSingleOrParallelCentralCut
  rcases hx : e.helper.calcSingleOrParallelCentralCut cut.2 (e.kappa * e.omega cut.1) with f | ⟨st, _ | p⟩
  · rw [hh] at hx; exact (EllCalc.calcCentral_total hn h0 ht f hx).elim
  · exact ((EllCalc.calcCentral_none hx).2 _ (sq_le_tsq he (hF hc) _) (hk hc)).elim
  · have hx' := hx
    rw [hh] at hx'
    obtain ⟨rfl, hsound⟩ := EllCalc.calcCentral_sound hn ht hx'
    have hup : e.updateCentralCut cut = (e.applied cut.1 p, .ok .success) := by rw [hs, hx]
    obtain ⟨w1, w2⟩ := ball_step he hr hball hF hg hsound (fun x hx => hk hx)
    exact ⟨_, hup, w1, w2, tsq_ge_of_ball he hball hF hg1,
      C07_volume_reduction e he .central cut _ trivial hup⟩

/-- The determinant cannot fall below that of the ball inside. -/
theorem det_ge_of_ball {e : Ell n} (he : e.WF) {F : Set (Vec n)} {c : Vec n} {r : ℝ}
    (hball : ball c r ⊆ F) (hF : F ⊆ e.region) : (r ^ 2) ^ n ≤ (e.kappa • e.mq).det := by
  rw [he.region_eq_hull] at hF
  refine det_ge_of_quad_ge (he.posDef.smul he.kappa_pos).isHermitian (sq_nonneg r) fun v => ?_
  rw [smul_mulVec, dotProduct_smul, smul_eq_mul]
  exact width_of_ball (hball.trans hF) v

end Ell

/-- The iteration bound: `k` steps that each shrink the determinant by `exp(-1/(n+1))` and do not go below `r^{2n}`. -/
theorem iterations_le {d0 d r : ℝ} {k n : ℕ} (hr : 0 < r) (h1 : (r ^ 2) ^ n ≤ d)
    (h2 : d ≤ Real.exp (-(k : ℝ) / ((n : ℝ) + 1)) * d0) :
    (k : ℝ) ≤ ((n : ℝ) + 1) * Real.log (d0 / (r ^ 2) ^ n) := by
  have hn : (0 : ℝ) < (n : ℝ) + 1 := by positivity
  have hrn : 0 < (r ^ 2) ^ n := by positivity
  have h3 := h1.trans h2
  have h4 : Real.exp ((k : ℝ) / ((n : ℝ) + 1)) ≤ d0 / (r ^ 2) ^ n := by
    rw [le_div_iff₀ hrn]
    calc Real.exp ((k : ℝ) / ((n : ℝ) + 1)) * (r ^ 2) ^ n
        ≤ Real.exp ((k : ℝ) / ((n : ℝ) + 1)) * (Real.exp (-(k : ℝ) / ((n : ℝ) + 1)) * d0) :=
          mul_le_mul_of_nonneg_left h3 (Real.exp_pos _).le
      _ = d0 := by rw [← mul_assoc, ← Real.exp_add, neg_div, add_neg_cancel, Real.exp_zero, one_mul]
  have h5 := Real.log_le_log (Real.exp_pos _) h4
  rw [Real.log_exp, div_le_iff₀ hn] at h5
  linarith

theorem log_ball_ratio {n : ℕ} {R r : ℝ} :
    Real.log ((R ^ 2) ^ n / (r ^ 2) ^ n) = 2 * n * Real.log (R / r) := by
  rw [← div_pow, ← div_pow, ← pow_mul, Real.log_pow]; push_cast; ring

end Ellalgo
