import Verif.Props.Containment
import Verif.Lemmas.Ranges
import Verif.Spec.History

/-! # C03 (refutation), C08 - C11, C18, C19, C60: state, invariants and ranges -/

namespace Ellalgo

open Matrix Spec EllCalcCore

variable {n : ℕ}

/-! ### C03: the unrestricted claim is false -/

/-- The full claim C03. -/
def C03_claim : Prop :=
  ∀ (n : ℕ) (e : Ell n), e.WF → ∀ (g : Vec n) (β0 β1 : ℝ), β0 ≤ β1 → ∀ e' : Ell n,
    e.updateBiasCut (g, .pair β0 β1) = (e', .ok .success) →
    e.region ∩ slab g β0 β1 e.xc ⊆ e'.hull

theorem parXi_F4 : parXi 2 (-3 / 4) (3 / 4) 1 = 7 / 16 := by
  unfold parXi
  rw [show (((1 : ℝ) - -3 / 4 * (-3 / 4)) * (1 - 3 / 4 * (3 / 4)) +
    (2 / 2 * (3 / 4 * (3 / 4) - -3 / 4 * (-3 / 4))) ^ 2) = (7 / 16) ^ 2 by norm_num]
  exact Real.sqrt_sq (by norm_num)

theorem parParams_F4 : parParams 2 (-3 / 4) (3 / 4) 1 = ⟨0, -2 / 7, 7 / 8⟩ := by
  simp only [parParams, parDen, parXi_F4, Params.mk.injEq]
  norm_num

/-- **C03 refuted.** With `n = 2`, the unit disc, `g = (1,0)` and `β = (-3/4, 3/4)` `update_bias_cut`
returns `Success` with `σ = -2/7`, `δ = 7/8`; the point `(0,1)` satisfies the cut and is lost. -/
theorem C03_refuted : ¬ C03_claim := by
  intro h
  have hstrat : unitDisc.helper.calcSingleOrParallel (.pair (-3 / 4) (3 / 4)) 1 =
      .ok (.success, some ⟨0, -2 / 7, 7 / 8⟩) := by
    rw [← parParams_F4]
    show (EllCalc.std 2 true).calcParallel (-3 / 4) (3 / 4) 1 = _
    unfold EllCalc.calcParallel
    rw [if_neg (by norm_num)]
    simp only
    rw [if_neg (by norm_num)]
    simp only [EllCalc.std]
    rw [calcParallelBiasCut_std (by norm_num) one_ne_zero]
    · simp
    · rw [show (((2 : ℕ) : ℝ)) = 2 by norm_num, parDen, parXi_F4]; norm_num
  have hup : unitDisc.updateBiasCut (![1, 0], .pair (-3 / 4) (3 / 4)) =
      (unitDisc.applied ![1, 0] ⟨0, -2 / 7, 7 / 8⟩, .ok .success) :=
    Ell.updateCore_some e1_ne_zero unitDisc_omega_ne (by rw [unitDisc_tsq]; exact hstrat)
  have hsub := h 2 unitDisc unitDisc_WF ![1, 0] (-3 / 4) (3 / 4) (by norm_num) _ hup
  have hmem : (![0, 1] : Vec 2) ∈ unitDisc.region ∩ slab ![1, 0] (-3 / 4) (3 / 4) unitDisc.xc := by
    constructor
    · simp [Ell.region, ellipsoid, unitDisc, inv_one]
    · simp [slab, unitDisc]; norm_num
  have := hsub hmem
  rw [Ell.applied_hull] at this
  have h2 := this ![0, 1]
  rw [unitDisc_omega] at h2
  simp [unitDisc, vecMulVec, Matrix.mulVec, dotProduct,
    Fin.sum_univ_two] at h2
  norm_num at h2

/-- Hypotheses of `C03_bias_cut_keeps_solutions_partial` met by a pair with a negative first offset. -/
example : EllCalc.EtaOK 2 (.pair (-1 / 2) (3 / 4)) (unitDisc.kappa * unitDisc.omega ![1, 0]) ∧
    ∃ e', unitDisc.updateBiasCut (![1, 0], .pair (-1 / 2) (3 / 4)) = (e', .ok .success) := by
  constructor
  · rw [unitDisc_tsq]; norm_num [EllCalc.EtaOK]
  · exact ⟨_, Ell.updateCore_some e1_ne_zero unitDisc_omega_ne (by
      rw [unitDisc_tsq]
      exact EllCalc.calcParallel_success (u := true) le_rfl (by norm_num) (by norm_num) (by norm_num)
        (by norm_num))⟩

/-! ### C60: constructors -/

/-- **C60.** The constructor accepts exactly `n ≥ 2`. -/
theorem C60_init_rejects (val : InitVal n) (x0 : Vec n) :
    (∃ e, Ell.init val x0 = .ok e) ↔ 2 ≤ n := by
  constructor
  · rintro ⟨e, h⟩
    unfold Ell.init at h
    rcases hx : EllCalc.init (n : ℤ) with f | c
    · rw [hx] at h; cases h
    · exact_mod_cast (EllCalc.init_eq hx).1
  · intro hn
    unfold Ell.init
    rw [EllCalc.init_two_le hn]
    cases val <;> exact ⟨_, rfl⟩

/-- **C60.** `Ell(val, x0)` with `val > 0` is legitimate and represents the ball of squared radius
`val` around `x0`. -/
theorem C60_init_scalar (κ : ℝ) (hκ : 0 < κ) (x0 : Vec n) (e : Ell n)
    (h : Ell.init (.scalar κ) x0 = .ok e) :
    e.WF ∧ e.xc = x0 ∧ e.tsq = 0 ∧ e.region = {x | ∑ i, (x i - x0 i) ^ 2 ≤ κ} := by
  unfold Ell.init at h
  rcases hx : EllCalc.init (n : ℤ) with f | c
  · rw [hx] at h; cases h
  · rw [hx] at h
    cases h
    refine ⟨⟨⟨c, hx, rfl⟩, Matrix.PosDef.one, hκ⟩, rfl, rfl, ?_⟩
    ext x
    simp [Ell.region, ellipsoid, inv_one, dotProduct, sq]

/-- **C60.** `Ell([d1,…,dn], x0)` with positive entries is legitimate and represents the axis-aligned
ellipsoid `∑ (x_i - x0_i)²/d_i ≤ 1`. -/
theorem C60_init_diag (d : Vec n) (hd : ∀ i, 0 < d i) (x0 : Vec n) (e : Ell n)
    (h : Ell.init (.diag d) x0 = .ok e) :
    e.WF ∧ e.xc = x0 ∧ e.tsq = 0 ∧ e.region = {x | ∑ i, (x i - x0 i) ^ 2 / d i ≤ 1} := by
  unfold Ell.init at h
  rcases hx : EllCalc.init (n : ℤ) with f | c
  · rw [hx] at h; cases h
  · rw [hx] at h
    cases h
    refine ⟨⟨⟨c, hx, rfl⟩, Matrix.PosDef.diagonal hd, one_pos⟩, rfl, rfl, ?_⟩
    have hinv : (Matrix.diagonal d)⁻¹ = Matrix.diagonal (fun i => (d i)⁻¹) := by
      apply Matrix.inv_eq_right_inv
      rw [Matrix.diagonal_mul_diagonal]
      rw [← Matrix.diagonal_one]
      congr 1
      funext i
      exact mul_inv_cancel₀ (hd i).ne'
    ext x
    simp only [Ell.region, ellipsoid, hinv, Set.mem_ofPred_eq, Matrix.mulVec_diagonal, dotProduct,
      Pi.sub_apply]
    have : ∀ i, (x i - x0 i) * ((d i)⁻¹ * (x i - x0 i)) = (x i - x0 i) ^ 2 / d i := by
      intro i; rw [div_eq_mul_inv]; ring
    simp only [this]

example : ∃ e, Ell.init (.diag ![1, 4]) ![0, 0] = .ok e := (C60_init_rejects _ _).mpr le_rfl

/-! ### C09 -/

/-- **C09.** Whatever the state of the object (no well-formedness assumed) and whatever the cut, a call
that does not report `Success` (another status or an exception) leaves everything but `tsq` as it was. -/
theorem C09_failed_cut_changes_only_tsq (e : Ell n) (m : Method) (cut : Cut n)
    (h : (e.update m cut).2 ≠ .ok .success) :
    (e.update m cut).1 = { e with tsq := (e.update m cut).1.tsq } := by
  have key : ∀ s : Strategy,
      (∀ β t st p, s β t = .ok (st, some p) → st = .success) →
      (e.updateCore cut s).2 ≠ .ok .success →
      (e.updateCore cut s).1 = { e with tsq := (e.updateCore cut s).1.tsq } := by
    intro s hs h
    obtain ⟨g, β⟩ := cut
    by_cases hg : g = 0
    · subst hg; rw [Ell.updateCore_zero]
    by_cases hω : e.omega g = 0
    · have : e.updateCore (g, β) s = (e, .ok .noEffect) := by
        have hg' : ¬ ∀ i, g i = 0 := fun h => hg (funext h)
        have hω' : g ⬝ᵥ (e.mq *ᵥ g) = 0 := hω
        unfold Ell.updateCore
        simp only [if_neg hg', if_pos hω']
      rw [this]
    rw [Ell.updateCore_eq hg hω] at h ⊢
    revert h
    rcases hx : s β (e.kappa * e.omega g) with f | ⟨st, _ | p⟩
    · intro _; rfl
    · intro _; rfl
    · intro h
      exact absurd (by rw [hs _ _ _ _ hx]) h
  cases m with
  | bias => exact key _ (fun _ _ _ _ h => EllCalc.calcSingleOrParallel_some h) h
  | central => exact key _ (fun _ _ _ _ h => EllCalc.calcCentral_some h) h
  | q => exact key _ (fun _ _ _ _ h => EllCalc.calcSingleOrParallelQ_some h) h

example : (unitDisc.update .bias (![1, 0], .scalar 2)).2 ≠ .ok .success := by
  have : unitDisc.update .bias (![1, 0], .scalar 2) = _ :=
    Ell.updateCore_none e1_ne_zero unitDisc_omega_ne (by
      rw [unitDisc_tsq]; exact EllCalc.calcBiasCut_noSoln (by norm_num) (by norm_num))
  rw [this]; simp

/-! ### C10 -/

/-- **C10.** After any call with a nonzero gradient (whatever its outcome) `tsq()` is the maximum of
`(gᵀ(x-xc))²` over the ellipsoid before the call. -/
theorem C10_tsq_is_squared_halfwidth (e : Ell n) (he : e.WF) (m : Method) (cut : Cut n)
    (hg : cut.1 ≠ 0) :
    IsGreatest ((fun x => (cut.1 ⬝ᵥ (x - e.xc)) ^ 2) '' e.region) (e.update m cut).1.tsq := by
  have ht : (e.update m cut).1.tsq = e.kappa * e.omega cut.1 := by
    obtain ⟨g, β⟩ := cut
    have hω := (he.omega_pos hg).ne'
    have key : ∀ s, (e.updateCore (g, β) s).1.tsq = e.kappa * e.omega g := by
      intro s
      rw [Ell.updateCore_eq hg hω]
      rcases s β (e.kappa * e.omega g) with f | ⟨st, _ | p⟩ <;> rfl
    cases m <;> exact key _
  rw [ht]
  set g := cut.1
  have hω := he.omega_pos hg
  have hκ := he.kappa_pos
  constructor
  · set r := Real.sqrt (e.kappa * e.omega g)
    have hr : r ^ 2 = e.kappa * e.omega g := Real.sq_sqrt (by positivity)
    refine ⟨e.xc + (r / e.omega g) • (e.mq *ᵥ g), ?_, ?_⟩
    · rw [he.region_eq_hull]
      intro v
      rw [add_sub_cancel_left, dotProduct_smul, smul_eq_mul, mul_pow, div_pow, hr]
      have hcs := cauchy_schwarz he.posDef.posSemidef v g
      have : e.kappa * e.omega g / e.omega g ^ 2 = e.kappa / e.omega g := by field_simp
      rw [this, div_mul_eq_mul_div, div_le_iff₀ hω, mul_assoc]
      exact mul_le_mul_of_nonneg_left hcs hκ.le
    · simp only [add_sub_cancel_left, dotProduct_smul, smul_eq_mul]
      rw [show g ⬝ᵥ (e.mq *ᵥ g) = e.omega g from rfl, div_mul_cancel₀ _ hω.ne', hr]
  · rintro _ ⟨x, hx, rfl⟩
    exact Ell.sq_le_tsq he hx g

/-! ### C11 -/

theorem applied_xc_sub (e : Ell n) (g : Vec n) (p : Params) :
    (e.applied g p).xc - e.xc = -((p.rho / e.omega g) • (e.mq *ᵥ g)) := by
  simp [Ell.applied]

theorem applied_centre_t {e : Ell n} (he : e.WF) {g : Vec n} (hg : g ≠ 0) (p : Params) :
    g ⬝ᵥ ((e.applied g p).xc - e.xc) = -p.rho := by
  have hω := he.omega_pos hg
  rw [applied_xc_sub, dotProduct_neg, dotProduct_smul, smul_eq_mul,
    show g ⬝ᵥ (e.mq *ᵥ g) = e.omega g from rfl, div_mul_cancel₀ _ hω.ne']

theorem applied_centre_mem {e : Ell n} (he : e.WF) {g : Vec n} (hg : g ≠ 0) {p : Params}
    (hp : p.rho ^ 2 ≤ e.kappa * e.omega g) : (e.applied g p).xc ∈ e.region := by
  have hω := he.omega_pos hg
  rw [he.region_eq_hull]
  intro v
  rw [applied_xc_sub, dotProduct_neg, dotProduct_smul, smul_eq_mul, neg_sq, mul_pow, div_pow]
  have hcs := cauchy_schwarz he.posDef.posSemidef v g
  have hv := PosSemidef.quad_nonneg he.posDef.posSemidef v
  rw [show g ⬝ᵥ (e.mq *ᵥ g) = e.omega g from rfl] at hcs
  rw [div_mul_eq_mul_div, div_le_iff₀ (by positivity)]
  calc p.rho ^ 2 * (v ⬝ᵥ (e.mq *ᵥ g)) ^ 2
      ≤ (e.kappa * e.omega g) * ((v ⬝ᵥ (e.mq *ᵥ v)) * e.omega g) :=
        mul_le_mul hp hcs (sq_nonneg _) (mul_nonneg he.kappa_pos.le hω.le)
    _ = e.kappa * (v ⬝ᵥ (e.mq *ᵥ v)) * e.omega g ^ 2 := by ring

/-- **C11.** After a successful deep cut (`update_bias_cut` with a scalar, or a pair with `0 ≤ β0`) or a
central cut, the new centre satisfies the cut and lies in the old ellipsoid. -/
theorem C11_new_centre (e : Ell n) (he : e.WF) (g : Vec n) (e' : Ell n) :
    (∀ β, e.updateBiasCut (g, .scalar β) = (e', .ok .success) →
      e'.xc ∈ halfSpace g β e.xc ∩ e.region) ∧
    (∀ β0 β1, 0 ≤ β0 → β0 < β1 → e.helper.useParallelCut = true →
      e.updateBiasCut (g, .pair β0 β1) = (e', .ok .success) →
      β0 * β0 < e'.tsq → e'.xc ∈ slab g β0 (min β1 (Real.sqrt e'.tsq)) e.xc ∩ e.region) ∧
    (∀ β, e.updateCentralCut (g, .scalar β) = (e', .ok .success) →
      e'.xc ∈ halfSpace g 0 e.xc ∩ e.region) := by
  obtain ⟨hn, hh⟩ := he.built.helper_eq
  have hn2 : (2 : ℝ) ≤ n := by exact_mod_cast hn
  refine ⟨fun β h => ?_, fun β0 β1 h0 h01 hu h hb => ?_, fun β h => ?_⟩
  · obtain ⟨hg, ht, hr | hr⟩ := Ell.updateCore_inv he h
    · obtain ⟨p, hp, rfl⟩ := hr
      simp only at hp ht hg
      rw [hh] at hp
      simp only [EllCalc.calcSingleOrParallel] at hp
      rcases lt_or_ge β 0 with h0 | h0
      · rw [EllCalc.calcBiasCut_neg h0] at hp; cases hp
      rcases lt_or_ge (e.kappa * e.omega g) (β * β) with h1 | h1
      · rw [EllCalc.calcBiasCut_noSoln h0 h1] at hp; cases hp
      rw [EllCalc.calcBiasCut_success h0 ht h1] at hp
      cases hp
      have hs := Real.sqrt_pos.mpr ht
      obtain ⟨h2, h3, h4⟩ := bias_rho_range hn2 (by positivity) (EllCalc.le_sqrt_of_sq h1)
      refine ⟨?_, applied_centre_mem he hg ?_⟩
      · show g ⬝ᵥ (_ - e.xc) + β ≤ 0
        rw [applied_centre_t he hg]; linarith
      · exact (pow_le_pow_left₀ h3 h4 2).trans_eq (Real.sq_sqrt ht.le)
    · exact absurd (EllCalc.calcSingleOrParallel_none hr.1).1 (by simp)
  · obtain ⟨hg, ht, hr | hr⟩ := Ell.updateCore_inv he h
    · obtain ⟨p, hp, rfl⟩ := hr
      simp only at hp ht hg
      rw [hh, hu] at hp
      have hb' : β0 * β0 < e.kappa * e.omega g := hb
      have hβ1 : 0 < β1 := lt_of_le_of_lt h0 h01
      have hp' : (EllCalc.std n true).calcParallel β0 β1 (e.kappa * e.omega g) = .ok (.success, some p) := hp
      show (e.applied g p).xc ∈ slab g β0 (min β1 (Real.sqrt (e.kappa * e.omega g))) e.xc ∩ e.region
      have hs := Real.sqrt_pos.mpr ht
      by_cases h1 : e.kappa * e.omega g ≤ β1 * β1
      · unfold EllCalc.calcParallel at hp'
        rw [if_neg (not_lt.mpr h01.le)] at hp'
        simp only at hp'
        rw [if_pos ⟨hβ1, h1⟩, EllCalc.calcBiasCut_success h0 ht hb'.le] at hp'
        cases hp'
        obtain ⟨h2, h3, h4⟩ := bias_rho_range hn2 (by positivity) (EllCalc.le_sqrt_of_sq hb'.le)
        have hle : Real.sqrt (e.kappa * e.omega g) ≤ β1 := by
          rw [Real.sqrt_le_left hβ1.le]; nlinarith
        refine ⟨⟨?_, ?_⟩, applied_centre_mem he hg ?_⟩
        · rw [applied_centre_t he hg]; linarith
        · rw [applied_centre_t he hg, min_eq_right hle]; linarith
        · exact (pow_le_pow_left₀ h3 h4 2).trans_eq (Real.sq_sqrt ht.le)
      · have h1' := not_le.mp h1
        rw [EllCalc.calcParallel_success hn h01.le (fun hc => h1 hc.2) ht (by positivity)] at hp'
        cases hp'
        obtain ⟨h2, h3, -⟩ := par_range hn2 ht h0 h01 h1'
        have hle : β1 ≤ Real.sqrt (e.kappa * e.omega g) := EllCalc.le_sqrt_of_sq h1'.le
        refine ⟨⟨?_, ?_⟩, applied_centre_mem he hg ?_⟩
        · rw [applied_centre_t he hg]; linarith
        · rw [applied_centre_t he hg, min_eq_left hle]; linarith
        · nlinarith
    · exact absurd (EllCalc.calcSingleOrParallel_none hr.1).1 (by simp)
  · obtain ⟨hg, ht, hr | hr⟩ := Ell.updateCore_inv he h
    · obtain ⟨p, hp, rfl⟩ := hr
      simp only at hp ht hg
      rw [hh] at hp
      simp only [EllCalc.calcSingleOrParallelCentralCut] at hp
      rw [psqrt_ok ht.le] at hp
      cases hp
      have hs := Real.sqrt_pos.mpr ht
      have e1 : (EllCalc.std n e.helper.useParallelCut).helper.calcCentralCut
          (Real.sqrt (e.kappa * e.omega g)) = biasParams n 0 (Real.sqrt (e.kappa * e.omega g)) :=
        calcCentralCut_std hs.ne'
      rw [e1]
      obtain ⟨h2, h3, h4⟩ := bias_rho_range (n := n) (β := 0)
        (τ := Real.sqrt (e.kappa * e.omega g)) hn2 (by positivity) (by positivity)
      refine ⟨?_, applied_centre_mem he hg ?_⟩
      · show g ⬝ᵥ (_ - e.xc) + 0 ≤ 0
        rw [applied_centre_t he hg]; linarith
      · exact (pow_le_pow_left₀ h3 h4 2).trans_eq (Real.sq_sqrt ht.le)
    · exact absurd (EllCalc.calcCentral_none hr.1).1 (by simp)

end Ellalgo
