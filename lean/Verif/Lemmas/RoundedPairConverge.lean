import Verif.Props.RoundedParallel
import Verif.Lemmas.AxisGrowth

/-! # One floating-point cut with one or two offsets, followed by a ball inside of the ellipsoid -/

namespace Ellalgo

open Matrix Spec EllCalcCore

variable {n : ℕ}

/-- Bounds on the parameters. -/
theorem PairParams.facts {a τ β0 β1 : ℝ} {q : Params} (h : PairParams n a τ β0 β1 q) (hn : 2 ≤ n) (hτ : 0 < τ) (hβ0 : 0 ≤ β0) (ha0 : 0 < a) (ha1 : a ≤ 1) (hβ : β0 ≤ (1 - a) * τ) :
    0 ≤ q.sigma ∧ a ^ 2 / 8 ≤ 1 - q.sigma ∧ 0 < q.delta ∧ q.delta ≤ 2 ∧ q.delta ^ (n - 1) * volFactor n q ≤ 1 ∧ volFactor n q ≤ Real.exp (-(98 / 100) / ((n : ℝ) + 1)) := by
  have hn2 : (2 : ℝ) ≤ n := by exact_mod_cast hn
  rcases h with rfl | ⟨W, rfl⟩
  · obtain ⟨b1, b2, -, -, b5⟩ := bias_bounds (N := n) hn2 hτ hβ0 ha0 ha1 hβ
    have hβτ : β0 < τ := by nlinarith
    have hvolf := (bias_vol_le hn hτ hβ0 hβτ.le).trans (centralFactor_le hn)
    refine ⟨by simp only [biasParams]; positivity, ?_, b5, ?_, bias_axis_vol hn hτ hβ0 hβτ, hvolf.trans (Real.exp_le_exp.mpr ?_)⟩
    · have := b2.trans b1
      nlinarith
    · have hN2 : (0 : ℝ) < (n : ℝ) ^ 2 - 1 := by nlinarith
      have h2 : (n : ℝ) ^ 2 / ((n : ℝ) ^ 2 - 1) ≤ 2 := by rw [div_le_iff₀ hN2]; nlinarith
      have h4 : (0 : ℝ) ≤ (n : ℝ) ^ 2 / ((n : ℝ) ^ 2 - 1) := by positivity
      refine le_trans ?_ h2
      simp only [biasParams]
      have h3 : 0 ≤ β0 ^ 2 / τ ^ 2 := by positivity
      nlinarith
    · exact div_le_div_of_nonneg_right (by norm_num) (by linarith)
  · exact ⟨(W.sigma_pos hn2).le, W.one_sub_sigma_ge hn2, W.delta_pos hn2, W.delta_le_two hn2, W.axis hn, W.vol hn⟩

theorem stretch_bound_pair (x y : ℝ) : 1 + 2500 * x + 5 * y ≤ (1 + (1250 * x + 5 / 2 * y)) ^ 2 := by nlinarith [sq_nonneg (1250 * x + 5 / 2 * y)]

namespace Arith.Track

variable {A : Arith} {e : Ell n} {c : Vec n} {ρ Λ V : ℝ}

set_option maxHeartbeats 2000000 in
/-- One cut with one or two offsets. The ball shrinks a little, the squared volume falls by at least the factor `exp (-9 / (10 (n + 1)))`, and the semi-axes grow no more than the fall of the volume permits. -/
theorem stepPair (T : A.Track e c ρ Λ V) {u γ ε ξ a β0 β1 : ℝ} (hA : A.Accurate u γ n) (hu : 0 ≤ u) (hnu : n * u ≤ γ) (hn : 2 ≤ n) (hρ : 0 < ρ) (hΛ : 0 < Λ)
    {g : Vec n} (hg : g ≠ 0) (mt : Method) (hβ0 : 0 ≤ mt.offset β0) {cc : CutChoice} (hcc : cc = .scalar β0 ∨ cc = .seq [some β0, some β1])
    (hk0 : g ⬝ᵥ (c - e.xc) + ρ * nrm g + mt.offset β0 ≤ 0) (hk1 : ρ * nrm g ≤ g ⬝ᵥ (c - e.xc) + β1) (ha0 : 0 < a) (ha1 : a ≤ 1) (hmargin : a * Λ ≤ 2 * ρ)
    (hε : γ * Real.sqrt n * (Λ ^ 2 / ρ ^ 2) ≤ ε) (hε2 : 25000 * (n * (n + 1)) * ε ≤ a ^ 4) (hξ : u * (nrm c + Λ) / ρ ≤ ξ) (hξ2 : 1000 * ξ ≤ a) :
    ∃ e' Λ' V', A.update e mt (g, cc) = (e', .ok .success) ∧ A.Track e' c (ρ - (1250 * (ε / a ^ 4) + 5 / 2 * (ξ / a)) * (2 * Λ)) Λ' V' ∧ 0 < Λ' ∧ Λ' ≤ 2 * Λ ∧
      V' ≤ V * Real.exp (-9 / (10 * ((n : ℝ) + 1))) ∧ (Λ' ^ 2) ^ (n - 1) * V' ≤ (Λ ^ 2) ^ (n - 1) * V * Real.exp (1 / (10 * ((n : ℝ) + 1))) ∧ ρ ^ 2 * (g ⬝ᵥ g) ≤ 2 * e'.tsq := by
  have hn2 : (2 : ℝ) ≤ n := by exact_mod_cast hn
  have huγ : u ≤ γ := by nlinarith
  have hκ := T.kappa
  have hsymm := T.symm
  obtain ⟨m, hm⟩ : ∃ m, m = ρ ^ 2 / e.kappa := ⟨_, rfl⟩
  obtain ⟨L, hL⟩ : ∃ L, L = Λ ^ 2 / e.kappa := ⟨_, rfl⟩
  have hm0 : 0 < m := by rw [hm]; positivity
  have hlow : ∀ v : Vec n, m * (v ⬝ᵥ v) ≤ v ⬝ᵥ (e.mq *ᵥ v) := fun v => by
    rw [hm, div_mul_eq_mul_div, div_le_iff₀ hκ, mul_comm (v ⬝ᵥ (e.mq *ᵥ v))]; exact T.lower hρ v
  have hup : ∀ v : Vec n, v ⬝ᵥ (e.mq *ᵥ v) ≤ L * (v ⬝ᵥ v) := fun v => by
    rw [hL, div_mul_eq_mul_div, le_div_iff₀ hκ, mul_comm (v ⬝ᵥ (e.mq *ᵥ v))]; exact T.upper v
  have hLm : L / m = Λ ^ 2 / ρ ^ 2 := by rw [hL, hm]; field_simp
  have hεi : epsOf n γ m L ≤ ε := by unfold epsOf; rw [hLm]; exact hε
  have hκm : Real.sqrt (e.kappa * m) = ρ := by rw [hm, mul_div_cancel₀ _ hκ.ne', Real.sqrt_sq hρ.le]
  have hξi : u * nrm e.xc / Real.sqrt (e.kappa * m) ≤ ξ := by
    rw [hκm]
    refine le_trans (div_le_div_of_nonneg_right (mul_le_mul_of_nonneg_left (T.centre hρ.le hΛ.le) hu) hρ.le) hξ
  have D : CutData A u γ e.mq m L := ⟨hA, hu, huγ, hn, hsymm, hm0, hlow, hup⟩
  have hε0 : 0 ≤ epsOf n γ m L := D.eps_nonneg
  have hξ0 : 0 ≤ u * nrm e.xc / Real.sqrt (e.kappa * m) := by have := nrm_nonneg e.xc; positivity
  have hε00 : 0 ≤ ε := hε0.trans hεi
  have hnn : 6 ≤ (n : ℝ) * (n + 1) := by nlinarith
  have hε3 : 100000 * ε ≤ a ^ 4 := le_trans (by nlinarith) hε2
  have hω : 0 < g ⬝ᵥ (e.mq *ᵥ g) := D.btw.posDef.dotProduct_mulVec_pos hg
  have hκω : 0 < e.kappa * (g ⬝ᵥ (e.mq *ᵥ g)) := mul_pos hκ hω
  have hτ := Real.sqrt_pos.mpr hκω
  have hτΛ : Real.sqrt (e.kappa * (g ⬝ᵥ (e.mq *ᵥ g))) ≤ Λ * nrm g := by
    refine Real.sqrt_le_iff.mpr ⟨mul_nonneg hΛ.le (nrm_nonneg _), ?_⟩
    rw [mul_pow, nrm_sq]
    exact T.upper _
  have haτ : a * Real.sqrt (e.kappa * (g ⬝ᵥ (e.mq *ᵥ g))) ≤ 2 * ρ * nrm g := by
    have h2 := mul_le_mul_of_nonneg_left hτΛ ha0.le
    have h3 := mul_le_mul_of_nonneg_right hmargin (nrm_nonneg g)
    linarith
  have hβ : mt.offset β0 ≤ (1 - a) * Real.sqrt (e.kappa * (g ⬝ᵥ (e.mq *ᵥ g))) := by
    have h1 := T.inside (-g)
    rw [nrm_neg, mulVec_neg, neg_dotProduct, neg_dotProduct, dotProduct_neg, neg_neg] at h1
    linarith
  have hw : mt.offset β0 + a * Real.sqrt (e.kappa * (g ⬝ᵥ (e.mq *ᵥ g))) ≤ β1 := by linarith
  obtain ⟨h1, q, hq, F⟩ : (A.update e mt (g, cc)).2 = .ok .success ∧ ∃ q, PairParams n a (Real.sqrt (e.kappa * (g ⬝ᵥ (e.mq *ᵥ g)))) (mt.offset β0) β1 q ∧
      PairFacts e (A.update e mt (g, cc)).1 g (mt.offset β0) β1 a (epsOf n γ m L) (u * nrm e.xc / Real.sqrt (e.kappa * m)) q := by
    rcases hcc with rfl | rfl
    · exact Arith.single_pair_step β1 hA hu huγ hn e T.helper T.defer hκ hsymm hm0 hlow hup hg mt hβ0 ha0 ha1 hβ (by linarith) (by linarith)
    · exact Arith.pair_step hA hu huγ hnu hn e T.helper T.defer hκ hsymm hm0 hlow hup hg mt hβ0 ha0 ha1 hβ hw (by linarith) (by linarith)
  obtain ⟨hσ0, hσ1, hδ0, hδ2, haxis, hvolf⟩ := hq.facts hn hτ hβ0 ha0 ha1 hβ
  change q.delta ^ (n - 1) * (q.delta ^ n * (1 - q.sigma)) ≤ 1 at haxis
  change q.delta ^ n * (1 - q.sigma) ≤ _ at hvolf
  have hkap := F.kappa
  have hsh := F.shape
  have hcon := F.contains
  have hnear := F.near
  have hdet := det_update D.btw.herm hω.ne' q.sigma
  obtain ⟨Y, hY⟩ : ∃ Y, Y = e.mq - (q.sigma / (g ⬝ᵥ (e.mq *ᵥ g))) • vecMulVec (e.mq *ᵥ g) (e.mq *ᵥ g) := ⟨_, rfl⟩
  rw [← hY] at hdet
  simp only [← hY] at hnear
  have ha2 : 0 < a ^ 2 := by positivity
  have hYpd : Y.PosDef := by rw [hY]; exact posDef_update D.btw.posDef hω (by linarith)
  have hYlow : ∀ v : Vec n, a ^ 2 / 8 * (v ⬝ᵥ (e.mq *ᵥ v)) ≤ v ⬝ᵥ (Y *ᵥ v) := fun v => by
    rw [hY, quad_update D.btw.herm]
    have hcs := cauchy_schwarz D.btw.posDef.posSemidef g v
    have h1 : q.sigma / (g ⬝ᵥ (e.mq *ᵥ g)) * (g ⬝ᵥ (e.mq *ᵥ v)) ^ 2 ≤ q.sigma * (v ⬝ᵥ (e.mq *ᵥ v)) := by
      rw [div_mul_eq_mul_div, div_le_iff₀ hω, mul_assoc]
      exact mul_le_mul_of_nonneg_left (by linarith) hσ0
    have h2 := mul_le_mul_of_nonneg_right hσ1 (D.quad_nonneg v)
    linarith
  set e' := (A.update e mt (g, cc)).1 with he'
  set δ := q.delta
  set σ := q.sigma
  obtain ⟨x, hx⟩ : ∃ x, x = ε / a ^ 4 := ⟨_, rfl⟩
  obtain ⟨y, hy⟩ : ∃ y, y = ξ / a := ⟨_, rfl⟩
  have ha4 : 0 < a ^ 4 := by positivity
  have ha42 : a ^ 4 ≤ a ^ 2 := pow_le_pow_of_le_one ha0.le ha1 (by norm_num)
  have hx0 : 0 ≤ x := by rw [hx]; positivity
  have hEx : epsOf n γ m L / a ^ 4 ≤ x := by rw [hx]; exact div_le_div_of_nonneg_right hεi ha4.le
  have hEx2 : epsOf n γ m L / a ^ 2 ≤ x * a ^ 2 := by
    rw [div_le_iff₀ ha2, show x * a ^ 2 * a ^ 2 = ε by rw [hx]; field_simp]
    exact hεi
  have ha21 : a ^ 2 ≤ 1 := pow_le_one₀ ha0.le ha1
  have hEx3 : epsOf n γ m L / a ^ 2 ≤ x := hEx2.trans (by nlinarith)
  have hy0 : u * nrm e.xc / Real.sqrt (e.kappa * m) / a ≤ y := by rw [hy]; exact div_le_div_of_nonneg_right hξi ha0.le
  have hy00 : 0 ≤ y := le_trans (by positivity) hy0
  have hxn : 25000 * ((n : ℝ) * (n + 1)) * x ≤ 1 := by
    rw [hx, ← mul_div_assoc, div_le_one ha4]; exact hε2
  have hκδ : 0 < e.kappa * δ := mul_pos hκ hδ0
  have hk' : e'.kappa ≤ e.kappa * δ * (1 + 173 * x) := by
    have h2 := (abs_le.mp hkap).2
    have h3 := mul_le_mul_of_nonneg_right hEx3 hκδ.le
    linarith
  have hk'0 : 0 < e'.kappa := F.kappa_pos
  have hX : ∀ v : Vec n, v ⬝ᵥ (e'.mq *ᵥ v) ≤ (1 + 1520 * x) * (v ⬝ᵥ (Y *ᵥ v)) := fun v => by
    have h2 := mul_le_mul_of_nonneg_left (hYlow v) hx0
    have h4 := mul_le_mul_of_nonneg_right hEx2 (D.quad_nonneg v)
    have h5 := hnear v
    linarith
  have hN1 : (0 : ℝ) < (n : ℝ) + 1 := by linarith
  have hx1 : 100000 * x ≤ 1 := le_trans (by nlinarith) hxn
  obtain ⟨B1, hB1⟩ : ∃ B1, B1 = (1 + 173 * x) * (1 + 190 * x) := ⟨_, rfl⟩
  obtain ⟨B2, hB2⟩ : ∃ B2, B2 = (1 + 173 * x) * (1 + 1520 * x) := ⟨_, rfl⟩
  have hB10 : 0 < B1 := by rw [hB1]; positivity
  have hB20 : 0 < B2 := by rw [hB2]; positivity
  have hB1e : B1 ≤ Real.exp (363 * x) := by
    rw [hB1, show 363 * x = 173 * x + 190 * x by ring, Real.exp_add]
    have := Real.add_one_le_exp (173 * x)
    have := Real.add_one_le_exp (190 * x)
    gcongr <;> linarith
  have hB2e : B2 ≤ Real.exp (1693 * x) := by
    rw [hB2, show 1693 * x = 173 * x + 1520 * x by ring, Real.exp_add]
    have := Real.add_one_le_exp (173 * x)
    have := Real.add_one_le_exp (1520 * x)
    gcongr <;> linarith
  have hB1l : B1 ≤ 101 / 100 := by rw [hB1]; nlinarith
  have hdB : 0 ≤ δ * B1 := by positivity
  have hupper : ∀ v : Vec n, e'.kappa * (v ⬝ᵥ (e'.mq *ᵥ v)) ≤ (Λ * Real.sqrt (δ * B1)) ^ 2 * (v ⬝ᵥ v) := fun v => by
    have q0 := D.quad_nonneg v
    have h2 : v ⬝ᵥ (e'.mq *ᵥ v) ≤ (1 + 190 * x) * (v ⬝ᵥ (e.mq *ᵥ v)) :=
      (hsh v).2.trans (mul_le_mul_of_nonneg_right (by linarith) q0)
    calc e'.kappa * (v ⬝ᵥ (e'.mq *ᵥ v)) ≤ (e.kappa * δ * (1 + 173 * x)) * ((1 + 190 * x) * (v ⬝ᵥ (e.mq *ᵥ v))) :=
          mul_le_mul hk' h2 (F.posDef.posSemidef.dotProduct_mulVec_nonneg v) (by positivity)
      _ = δ * B1 * (e.kappa * (v ⬝ᵥ (e.mq *ᵥ v))) := by rw [hB1]; ring
      _ ≤ δ * B1 * (Λ ^ 2 * (v ⬝ᵥ v)) := mul_le_mul_of_nonneg_left (T.upper v) hdB
      _ = _ := by rw [mul_pow, Real.sq_sqrt hdB]; ring
  have hV : 0 ≤ V := le_trans (by rw [det_smul]; have := D.btw.posDef.det_pos; positivity) T.vol
  have hs1 : 0 ≤ δ ^ n * (1 - σ) := mul_nonneg (pow_nonneg hδ0.le n) (by linarith)
  have hvol : (e'.kappa • e'.mq).det ≤ V * (δ ^ n * (1 - σ)) * B2 ^ n := by
    have h2 := det_le_of_quad_le_quad F.posDef.posSemidef hYpd hX
    rw [hdet] at h2
    have hM0 : 0 < e.mq.det := D.btw.posDef.det_pos
    have h3 : (e'.kappa • e'.mq).det ≤ (e.kappa * δ * (1 + 173 * x)) ^ n * ((1 + 1520 * x) ^ n * (e.mq.det * (1 - σ))) := by
      rw [det_smul, Fintype.card_fin]
      exact mul_le_mul (pow_le_pow_left₀ hk'0.le hk' n) h2 F.posDef.posSemidef.det_nonneg (by positivity)
    have h5 : (e.kappa • e.mq).det = e.kappa ^ n * e.mq.det := by rw [det_smul, Fintype.card_fin]
    calc (e'.kappa • e'.mq).det ≤ _ := h3
      _ = (e.kappa • e.mq).det * (δ ^ n * (1 - σ)) * B2 ^ n := by rw [h5, hB2, mul_pow, mul_pow, mul_pow]; ring
      _ ≤ _ := mul_le_mul_of_nonneg_right (mul_le_mul_of_nonneg_right T.vol hs1) (by positivity)
  have hΛ2 : Λ * Real.sqrt (δ * B1) ≤ 2 * Λ := by
    have : Real.sqrt (δ * B1) ≤ 2 := by
      rw [Real.sqrt_le_iff]
      refine ⟨by norm_num, ?_⟩
      calc δ * B1 ≤ 2 * (101 / 100) := mul_le_mul hδ2 hB1l hB10.le (by norm_num)
        _ ≤ _ := by norm_num
    nlinarith
  have hin : ∀ v : Vec n, v ⬝ᵥ (c - e'.xc) + (ρ - (1250 * (ε / a ^ 4) + 5 / 2 * (ξ / a)) * (2 * Λ)) * nrm v ≤ Real.sqrt (e'.kappa * (v ⬝ᵥ (e'.mq *ᵥ v))) := by
    have hsub : ball c ρ ⊆ supportSet e'.mq (e'.kappa * (1 + 2500 * x + 5 * y)) e'.xc := fun z hz => by
      have hz1 : z ∈ Spec.ellipsoid e.mq (e.kappa * 1 ^ 2) e.xc := by
        rw [one_pow, mul_one, ← supportSet_eq_ellipsoid D.btw.posDef hκ.le]
        exact T.ball_subset hρ hz
      have hz2 := dot_le_of_mem_ball hρ.le hz g e.xc
      have hz4 := dot_le_of_mem_ball hρ.le hz (-g) e.xc
      rw [nrm_neg, neg_dotProduct, neg_dotProduct] at hz4
      have hz3 := hcon 1 0 le_rfl le_rfl z hz1 (by linarith) (by linarith)
      have h0 : (0 : ℝ) ≤ 1 + 2500 * (epsOf n γ m L / a ^ 4) + 5 * (u * nrm e.xc / Real.sqrt (e.kappa * m) / a) := by positivity
      rw [sub_self, zero_add, mul_zero, add_zero, one_pow, mul_one, ← supportSet_eq_ellipsoid F.posDef (mul_nonneg hk'0.le h0)] at hz3
      intro v
      refine (hz3 v).trans (mul_le_mul_of_nonneg_right (mul_le_mul_of_nonneg_left ?_ hk'0.le) (F.posDef.posSemidef.dotProduct_mulVec_nonneg v))
      linarith
    intro v
    have hQ : 0 ≤ v ⬝ᵥ (e'.mq *ᵥ v) := F.posDef.posSemidef.dotProduct_mulVec_nonneg v
    have h2 := (ball_subset_support hρ.le fun v => mul_nonneg (mul_nonneg hk'0.le (by positivity)) (F.posDef.posSemidef.dotProduct_mulVec_nonneg v)).mp hsub v
    have h3 : Real.sqrt (e'.kappa * (1 + 2500 * x + 5 * y) * (v ⬝ᵥ (e'.mq *ᵥ v))) ≤ (1 + (1250 * x + 5 / 2 * y)) * Real.sqrt (e'.kappa * (v ⬝ᵥ (e'.mq *ᵥ v))) := by
      refine Real.sqrt_le_iff.mpr ⟨by positivity, ?_⟩
      rw [mul_pow, Real.sq_sqrt (mul_nonneg hk'0.le hQ)]
      have h4 := stretch_bound_pair x y
      have h5 := mul_le_mul_of_nonneg_right h4 (mul_nonneg hk'0.le hQ)
      linarith
    have h4 : Real.sqrt (e'.kappa * (v ⬝ᵥ (e'.mq *ᵥ v))) ≤ 2 * Λ * nrm v := by
      refine le_trans (b := Λ * Real.sqrt (δ * B1) * nrm v) ?_ (mul_le_mul_of_nonneg_right hΛ2 (nrm_nonneg v))
      refine Real.sqrt_le_iff.mpr ⟨mul_nonneg (by positivity) (nrm_nonneg _), ?_⟩
      rw [mul_pow _ (nrm v), nrm_sq]
      exact hupper v
    rw [← hx, ← hy]
    have h6 := mul_le_mul_of_nonneg_left h4 (show 0 ≤ 1250 * x + 5 / 2 * y by positivity)
    linarith
  have hB2n : B2 ^ n ≤ Real.exp (n * (1693 * x)) := by
    rw [Real.exp_nat_mul]; exact pow_le_pow_left₀ hB20.le hB2e n
  have hB1n : B1 ^ (n - 1) ≤ Real.exp (n * (363 * x)) := by
    have h2 : B1 ^ (n - 1) ≤ Real.exp (363 * x) ^ (n - 1) := pow_le_pow_left₀ hB10.le hB1e _
    rw [Real.exp_nat_mul]
    exact h2.trans (pow_le_pow_right₀ (Real.one_le_exp (by positivity)) (by omega))
  refine ⟨e', Λ * Real.sqrt (δ * B1), V * (δ ^ n * (1 - σ)) * B2 ^ n, ?_, ⟨?_, ?_, F.symm, hk'0, hin, hupper, hvol⟩, by positivity, hΛ2, ?_, ?_, ?_⟩
  · rw [he', ← h1]
  · rw [F.helper]; exact T.helper
  · rw [F.defer]; exact T.defer
  · rw [mul_assoc]
    refine mul_le_mul_of_nonneg_left ?_ hV
    refine (mul_le_mul hvolf hB2n (by positivity) (Real.exp_pos _).le).trans ?_
    rw [← Real.exp_add]
    refine Real.exp_le_exp.mpr ?_
    have h2 : (n : ℝ) * (1693 * x) ≤ 8 / 100 / (n + 1) := by
      rw [le_div_iff₀ hN1]
      have : 0 ≤ (n : ℝ) * (n + 1) * x := by positivity
      linarith
    have h3 : -9 / (10 * ((n : ℝ) + 1)) = -(98 / 100) / (n + 1) + 8 / 100 / (n + 1) := by field_simp; norm_num
    linarith
  · have h2 : ((Λ * Real.sqrt (δ * B1)) ^ 2) ^ (n - 1) = (Λ ^ 2) ^ (n - 1) * δ ^ (n - 1) * B1 ^ (n - 1) := by
      rw [mul_pow, Real.sq_sqrt hdB, mul_pow, mul_pow, mul_assoc]
    rw [h2]
    calc (Λ ^ 2) ^ (n - 1) * δ ^ (n - 1) * B1 ^ (n - 1) * (V * (δ ^ n * (1 - σ)) * B2 ^ n) = (Λ ^ 2) ^ (n - 1) * V * ((δ ^ (n - 1) * (δ ^ n * (1 - σ))) * (B1 ^ (n - 1) * B2 ^ n)) := by ring
      _ ≤ (Λ ^ 2) ^ (n - 1) * V * (1 * (Real.exp (n * (363 * x)) * Real.exp (n * (1693 * x)))) := by gcongr
      _ ≤ _ := by
        refine mul_le_mul_of_nonneg_left ?_ (by positivity)
        rw [one_mul, ← Real.exp_add]
        refine Real.exp_le_exp.mpr ?_
        rw [le_div_iff₀ (by positivity)]
        have : 0 ≤ (n : ℝ) * (n + 1) * x := by positivity
        linarith
  · exact (T.lower hρ g).trans F.tsq

end Arith.Track

end Ellalgo
