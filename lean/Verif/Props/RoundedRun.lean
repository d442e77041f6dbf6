import Verif.Props.RoundedContainment
import Verif.Spec.RoundedRun
import Mathlib.Algebra.Order.Star.Real

/-! # C94: whole runs in floating point -/

namespace Ellalgo

open Matrix Spec

variable {n : ℕ}

theorem inflStep_ge {a c s φ : ℝ} (ha : 0 < a) (hc : 0 ≤ c) (hs : 0 ≤ s) (hφ : 1 ≤ φ) : 1 ≤ inflStep n a c s φ := by
  unfold inflStep
  have : 0 ≤ ((n : ℝ) + 1) / (n * a) * (φ - 1 + s) := mul_nonneg (by positivity) (by linarith)
  nlinarith

theorem inflStep_iter_ge {a c s φ : ℝ} (ha : 0 < a) (hc : 0 ≤ c) (hs : 0 ≤ s) (hφ : 1 ≤ φ) (k : ℕ) : 1 ≤ (inflStep n a c s)^[k] φ := by
  induction k generalizing φ with
  | zero => exact hφ
  | succ k ih => rw [Function.iterate_succ_apply]; exact ih (inflStep_ge ha hc hs hφ)

/-- **C94.** The inflation after `k` cuts in closed form. -/
theorem C94_inflation (a c s : ℝ) (k : ℕ) :
    (inflStep n a c s)^[k] 1 = 1 + (c + (1 + c) * ((n + 1) / (n * a)) * s) * ∑ i ∈ Finset.range k, ((1 + c) * ((n + 1) / (n * a))) ^ i := by
  have key : ∀ φ : ℝ, (inflStep n a c s)^[k] φ = 1 + (c + (1 + c) * ((n + 1) / (n * a)) * s) * ∑ i ∈ Finset.range k, ((1 + c) * ((n + 1) / (n * a))) ^ i + ((1 + c) * ((n + 1) / (n * a))) ^ k * (φ - 1) := by
    induction k with
    | zero => intro φ; simp
    | succ k ih =>
      intro φ
      rw [Function.iterate_succ_apply, ih, Finset.sum_range_succ, pow_succ]
      unfold inflStep
      ring
  rw [key, sub_self, mul_zero, add_zero]

theorem ellipsoid_mono {M : Mat n} {κ κ' : ℝ} (h : κ ≤ κ') {c x : Vec n} (hx : x ∈ ellipsoid M κ c) : x ∈ ellipsoid M κ' c :=
  le_trans (show _ ≤ κ from hx) h

/-- **C94.** A whole history of single cuts in floating point. If every state in which a cut is made is well conditioned (`γ √n cond(mq) ≤ ε` and rounding error of the centre at most `ξ` semi-axes, both small against `a`) and every
cut is central or deep with margin `a`, then every call reports `Success`, the shape stays positive definite and every point of the first ellipsoid that satisfies every cut (up to the fraction `s` of the width; `s = 0`: exactly) lies in the
last ellipsoid after its semi-axes are stretched by the factor of `C94_inflation`. -/
theorem C94_run {A : Arith} {u γ ε ξ a s : ℝ} (hA : A.Accurate u γ n) (hu : 0 ≤ u) (huγ : u ≤ γ) (hn : 2 ≤ n) (ha0 : 0 < a) (ha1 : a ≤ 1) (hε : 2000 * ε ≤ a) (hξ : 1000 * ξ ≤ a) (hs : 0 ≤ s)
    (e : Ell n) (he : A.calcInit (n : ℤ) = .ok e.helper) (hd : e.noDeferTrick = false) (hκ : 0 < e.kappa) (hpd : e.mq.PosDef)
    (l : List (Method × Vec n × ℝ)) (hr : A.InRange a e l) (hw : A.WellConditioned u γ ε ξ e l) :
    (∀ r ∈ A.statuses e (singleCalls l), r = .ok .success) ∧ (A.run e (singleCalls l)).mq.PosDef ∧ 0 < (A.run e (singleCalls l)).kappa ∧
    ∀ z ∈ e.region, A.Satisfies s z e l → z ∈ ellipsoid (A.run e (singleCalls l)).mq
      ((A.run e (singleCalls l)).kappa * ((inflStep n a ((250 * ε + 2 * ξ) / a) s)^[l.length] 1) ^ 2) (A.run e (singleCalls l)).xc := by
  suffices h : ∀ φ : ℝ, 1 ≤ φ → (∀ r ∈ A.statuses e (singleCalls l), r = .ok .success) ∧ (A.run e (singleCalls l)).mq.PosDef ∧ 0 < (A.run e (singleCalls l)).kappa ∧
      ∀ z ∈ ellipsoid e.mq (e.kappa * φ ^ 2) e.xc, A.Satisfies s z e l → z ∈ ellipsoid (A.run e (singleCalls l)).mq
        ((A.run e (singleCalls l)).kappa * ((inflStep n a ((250 * ε + 2 * ξ) / a) s)^[l.length] φ) ^ 2) (A.run e (singleCalls l)).xc by
    obtain ⟨h1, h2, h3, h4⟩ := h 1 le_rfl
    refine ⟨h1, h2, h3, fun z hz hc => h4 z ?_ hc⟩
    rw [one_pow, mul_one]; exact hz
  induction l generalizing e with
  | nil => exact fun φ _ => ⟨fun r hr => by simp [singleCalls, Arith.statuses] at hr, hpd, hκ, fun z hz _ => hz⟩
  | cons t l ih =>
    obtain ⟨mt, g, β⟩ := t
    intro φ hφ
    obtain ⟨hg, hβ0, hβ, hr'⟩ := hr
    obtain ⟨⟨m, L, hm, hlow, hup, hεi, hξi⟩, hw'⟩ := hw
    have hsymm : e.mq.IsSymm := by
      have := hpd.isHermitian
      rwa [IsHermitian, conjTranspose_eq_transpose_of_trivial] at this
    change epsOf n γ m L ≤ ε at hεi
    change u * nrm e.xc / Real.sqrt (e.kappa * m) ≤ ξ at hξi
    obtain ⟨h1, F⟩ := Arith.single_step hA hu huγ hn e he hd hκ hsymm hm hlow hup hg mt hβ0 ha0 ha1 hβ (by linarith) (by linarith)
    have hε0 : 0 ≤ epsOf n γ m L := CutData.eps_nonneg ⟨hA, hu, huγ, hn, hsymm, hm, hlow, hup⟩
    have hξ0 : 0 ≤ u * nrm e.xc / Real.sqrt (e.kappa * m) := by have := nrm_nonneg e.xc; positivity
    have hc0 : 0 ≤ (250 * ε + 2 * ξ) / a := div_nonneg (by linarith) ha0.le
    obtain ⟨k1, k2, k3, k4⟩ := ih (A.update e mt (g, .scalar β)).1 (by rw [F.helper]; exact he) (by rw [F.defer]; exact hd) F.kappa_pos F.posDef hr' hw'
      (inflStep n a ((250 * ε + 2 * ξ) / a) s φ) (inflStep_ge ha0 hc0 hs hφ)
    refine ⟨fun r hr => ?_, k2, k3, fun z hz hsat => ?_⟩
    · rcases List.mem_cons.mp hr with h | h
      · rw [h]; exact h1
      · exact k1 r h
    · rw [List.length_cons, Function.iterate_succ_apply]
      refine k4 z ?_ hsat.2
      refine ellipsoid_mono (mul_le_mul_of_nonneg_left ?_ F.kappa_pos.le) (F.contains φ s hφ hs z hz hsat.1)
      unfold inflStep
      rw [mul_pow]
      refine mul_le_mul_of_nonneg_right ?_ (sq_nonneg _)
      have e1 : 500 * (epsOf n γ m L / a) + 4 * (u * nrm e.xc / Real.sqrt (e.kappa * m) / a) ≤ 2 * ((250 * ε + 2 * ξ) / a) := by
        generalize epsOf n γ m L = X at *
        generalize u * nrm e.xc / Real.sqrt (e.kappa * m) = Y at *
        rw [show 500 * (X / a) + 4 * (Y / a) = (500 * X + 4 * Y) / a by ring, show 2 * ((250 * ε + 2 * ξ) / a) = (500 * ε + 4 * ξ) / a by ring]
        exact div_le_div_of_nonneg_right (by linarith) ha0.le
      nlinarith [sq_nonneg ((250 * ε + 2 * ξ) / a)]

/-! ### Conditions on the first ellipsoid and the number of cuts only -/

/-- How much worse the condition number can get in one cut. -/
noncomputable def condGrowth (n : ℕ) (a : ℝ) : ℝ := 5 / 4 * ((n + 1) * (2 - a) / ((n - 1) * a))

theorem one_le_condGrowth (hn : 2 ≤ n) {a : ℝ} (ha0 : 0 < a) (ha1 : a ≤ 1) : 1 ≤ condGrowth n a := by
  have hn2 : (2 : ℝ) ≤ n := by exact_mod_cast hn
  unfold condGrowth
  have h1 : 0 < ((n : ℝ) - 1) * a := mul_pos (by linarith) ha0
  have : 1 ≤ ((n : ℝ) + 1) * (2 - a) / ((n - 1) * a) := by
    rw [le_div_iff₀ h1]; nlinarith
  linarith

open EllCalcCore in
/-- The exact parameters of one cut with margin `a`. -/
theorem bias_bounds {N β τ a : ℝ} (hN : 2 ≤ N) (hτ : 0 < τ) (hβ0 : 0 ≤ β) (ha0 : 0 < a) (ha1 : a ≤ 1) (hβ : β ≤ (1 - a) * τ) :
    (N - 1) * a / ((N + 1) * (2 - a)) ≤ 1 - (biasParams N β τ).sigma ∧ a / 6 ≤ (N - 1) * a / ((N + 1) * (2 - a)) ∧
    (biasParams N β τ).delta ≤ 4 / 3 ∧ 4 / 9 * a ^ 2 ≤ (biasParams N β τ).delta * ((N - 1) * a / ((N + 1) * (2 - a))) ∧ 0 < (biasParams N β τ).delta := by
  have h2a : 0 < 2 - a := by linarith
  have hN1 : 0 < N - 1 := by linarith
  have hN2 : 0 < N ^ 2 - 1 := by nlinarith
  have hα : β ^ 2 / τ ^ 2 ≤ (1 - a) ^ 2 := by
    rw [div_le_iff₀ (by positivity), ← mul_pow]; exact pow_le_pow_left₀ hβ0 hβ 2
  have hα0 : 0 ≤ β ^ 2 / τ ^ 2 := by positivity
  have hd1 : N ^ 2 / (N ^ 2 - 1) ≤ 4 / 3 := by rw [div_le_div_iff₀ hN2 (by norm_num)]; nlinarith
  have hd0 : 0 < N ^ 2 / (N ^ 2 - 1) := by positivity
  have hdl : N ^ 2 / (N ^ 2 - 1) * (a * (2 - a)) ≤ (biasParams N β τ).delta := by
    simp only [biasParams]
    exact mul_le_mul_of_nonneg_left (by linarith) hd0.le
  refine ⟨?_, ?_, ?_, ?_, lt_of_lt_of_le (by positivity) hdl⟩
  · rw [bias_one_sub_sigma hN (by linarith), div_le_div_iff₀ (by positivity) (by positivity)]
    have h1 : a * τ ≤ τ - β := by linarith
    have h2 : τ + β ≤ (2 - a) * τ := by linarith
    have h3 : a * (τ + β) ≤ (2 - a) * (τ - β) := by nlinarith
    have := mul_le_mul_of_nonneg_left h3 (by positivity : 0 ≤ (N - 1) * (N + 1))
    linarith
  · rw [div_le_div_iff₀ (by norm_num) (by positivity)]
    have : (N + 1) * (2 - a) ≤ (N - 1) * 6 := by nlinarith
    have := mul_le_mul_of_nonneg_left this ha0.le
    linarith
  · simp only [biasParams]
    calc N ^ 2 / (N ^ 2 - 1) * (1 - β ^ 2 / τ ^ 2) ≤ N ^ 2 / (N ^ 2 - 1) * 1 := mul_le_mul_of_nonneg_left (by linarith) hd0.le
      _ ≤ 4 / 3 := by linarith
  · refine le_trans ?_ (mul_le_mul_of_nonneg_right hdl (by positivity))
    have e1 : N ^ 2 / (N ^ 2 - 1) * (a * (2 - a)) * ((N - 1) * a / ((N + 1) * (2 - a))) = (N / (N + 1)) ^ 2 * a ^ 2 := by
      rw [show N ^ 2 - 1 = (N - 1) * (N + 1) by ring]; field_simp
    rw [e1]
    refine mul_le_mul_of_nonneg_right ?_ (sq_nonneg a)
    have : 2 / 3 ≤ N / (N + 1) := by rw [div_le_div_iff₀ (by norm_num) (by linarith)]; linarith
    nlinarith

/-- The bounds carried along a run. -/
theorem StepFacts.bounds {e e' : Ell n} {g : Vec n} {β m L a ε ξ : ℝ} (F : StepFacts e e' g β m L a ε ξ) (hn : 2 ≤ n) (hκ : 0 < e.kappa) (hm : 0 < m) (hL : 0 < L)
    (hlow : ∀ v : Vec n, m * (v ⬝ᵥ v) ≤ v ⬝ᵥ (e.mq *ᵥ v)) (hup : ∀ v : Vec n, v ⬝ᵥ (e.mq *ᵥ v) ≤ L * (v ⬝ᵥ v)) (hω : 0 < g ⬝ᵥ (e.mq *ᵥ g)) (hβ0 : 0 ≤ β) (ha0 : 0 < a) (ha1 : a ≤ 1)
    (hβ : β ≤ (1 - a) * Real.sqrt (e.kappa * (g ⬝ᵥ (e.mq *ᵥ g)))) (hε0 : 0 ≤ ε) (hε : 2000 * ε ≤ a) (hξ : 1000 * ξ ≤ a) :
    ∃ m' L' : ℝ, 0 < m' ∧ 0 < L' ∧ (∀ v : Vec n, m' * (v ⬝ᵥ v) ≤ v ⬝ᵥ (e'.mq *ᵥ v)) ∧ (∀ v : Vec n, v ⬝ᵥ (e'.mq *ᵥ v) ≤ L' * (v ⬝ᵥ v)) ∧
      L' / m' ≤ L / m * condGrowth n a ∧ a ^ 2 / 3 * (e.kappa * m) ≤ e'.kappa * m' ∧ Real.sqrt (e'.kappa * L') ≤ 5 / 4 * Real.sqrt (e.kappa * L) ∧
      nrm e'.xc ≤ nrm e.xc + 5 / 4 * Real.sqrt (e.kappa * L) := by
  have hn2 : (2 : ℝ) ≤ n := by exact_mod_cast hn
  have hτ : 0 < Real.sqrt (e.kappa * (g ⬝ᵥ (e.mq *ᵥ g))) := Real.sqrt_pos.mpr (mul_pos hκ hω)
  obtain ⟨b1, b2, b3, b4, b5⟩ := bias_bounds (N := n) hn2 hτ hβ0 ha0 ha1 hβ
  have hcent := F.centre
  have hkap := F.kappa
  have hsh := F.shape
  set p := EllCalcCore.biasParams n β (Real.sqrt (e.kappa * (g ⬝ᵥ (e.mq *ᵥ g)))) with hp
  set q := ((n : ℝ) - 1) * a / ((n + 1) * (2 - a)) with hq
  have hq0 : 0 < q := by linarith
  have h2a : 0 < 2 - a := by linarith
  have hn1 : 0 < (n : ℝ) - 1 := by linarith
  have hκδ : 0 < e.kappa * p.delta := mul_pos hκ b5
  have hee : 42 * (ε / a) ≤ 21 / 1000 := by
    have : ε / a ≤ 1 / 2000 := by rw [div_le_iff₀ ha0]; linarith
    linarith
  have hk1 : e'.kappa ≤ 1021 / 1000 * (e.kappa * p.delta) := by
    have := (abs_le.mp hkap).2
    have := mul_le_mul_of_nonneg_right hee hκδ.le
    linarith
  have hk2 : 979 / 1000 * (e.kappa * p.delta) ≤ e'.kappa := by
    have := (abs_le.mp hkap).1
    have := mul_le_mul_of_nonneg_right hee hκδ.le
    linarith
  have hσ : 6 / 7 * q ≤ 1 - p.sigma - 42 * ε := by linarith
  refine ⟨6 / 7 * q * m, 103 / 100 * L, by positivity, by positivity, fun v => ?_, fun v => ?_, ?_, ?_, ?_, ?_⟩
  · have h1 := (hsh v).1
    have h2 := hlow v
    have h3 := dot_self_nn v
    have h4 : 0 ≤ v ⬝ᵥ (e.mq *ᵥ v) := le_trans (by positivity) h2
    calc 6 / 7 * q * m * (v ⬝ᵥ v) = 6 / 7 * q * (m * (v ⬝ᵥ v)) := by ring
      _ ≤ 6 / 7 * q * (v ⬝ᵥ (e.mq *ᵥ v)) := mul_le_mul_of_nonneg_left h2 (by positivity)
      _ ≤ (1 - p.sigma - 42 * ε) * (v ⬝ᵥ (e.mq *ᵥ v)) := mul_le_mul_of_nonneg_right hσ h4
      _ ≤ _ := h1
  · have h1 := (hsh v).2
    have h2 := hup v
    have h3 := dot_self_nn v
    calc v ⬝ᵥ (e'.mq *ᵥ v) ≤ (1 + 42 * ε) * (v ⬝ᵥ (e.mq *ᵥ v)) := h1
      _ ≤ (1 + 42 * ε) * (L * (v ⬝ᵥ v)) := mul_le_mul_of_nonneg_left h2 (by positivity)
      _ ≤ 103 / 100 * (L * (v ⬝ᵥ v)) := mul_le_mul_of_nonneg_right (by linarith) (by positivity)
      _ = _ := by ring
  · have e1 : L / m * condGrowth n a = 5 / 4 * L / (q * m) := by
      unfold condGrowth; rw [hq]; field_simp
    rw [e1, div_le_div_iff₀ (by positivity) (by positivity)]
    have : 0 ≤ L * (q * m) := by positivity
    nlinarith
  · have h1 : 979 / 1000 * (e.kappa * p.delta) * (6 / 7 * q * m) ≤ e'.kappa * (6 / 7 * q * m) := mul_le_mul_of_nonneg_right hk2 (by positivity)
    have h2 := mul_le_mul_of_nonneg_right b4 (by positivity : 0 ≤ e.kappa * m)
    have h3 : 0 ≤ a ^ 2 * (e.kappa * m) := by positivity
    nlinarith
  · rw [show 5 / 4 * Real.sqrt (e.kappa * L) = Real.sqrt ((5 / 4) ^ 2 * (e.kappa * L)) by rw [Real.sqrt_mul (show (0 : ℝ) ≤ (5 / 4) ^ 2 by norm_num), Real.sqrt_sq (by norm_num)]]
    refine Real.sqrt_le_sqrt ?_
    have h1 : e'.kappa ≤ 1021 / 1000 * (4 / 3) * e.kappa := by
      have := mul_le_mul_of_nonneg_left b3 hκ.le
      linarith
    have h2 := mul_le_mul_of_nonneg_right h1 (by positivity : 0 ≤ 103 / 100 * L)
    have h3 : 0 ≤ e.kappa * L := by positivity
    nlinarith
  · have h1 : nrm (e'.xc - e.xc) ≤ 5 / 4 * Real.sqrt (e.kappa * L) := by
      refine nrm_le_of_sq (by positivity) ?_
      set d := e'.xc - e.xc with hd
      have h2 := hcent d
      rw [abs_of_nonneg (dot_self_nn d)] at h2
      have h3 : Real.sqrt (d ⬝ᵥ (e.mq *ᵥ d)) ≤ Real.sqrt L * nrm d := by
        unfold nrm
        rw [← Real.sqrt_mul hL.le]
        exact Real.sqrt_le_sqrt (hup d)
      have h4 : nrm d ^ 2 ≤ nrm d * (5 / 4 * Real.sqrt (e.kappa * L)) := by
        rw [nrm_sq]
        refine h2.trans ?_
        rw [Real.sqrt_mul hκ.le]
        have h5 : 1 + (ξ + 36 * ε) ≤ 5 / 4 := by linarith
        calc Real.sqrt (d ⬝ᵥ (e.mq *ᵥ d)) * (1 + (ξ + 36 * ε)) * Real.sqrt e.kappa ≤ Real.sqrt (d ⬝ᵥ (e.mq *ᵥ d)) * (5 / 4) * Real.sqrt e.kappa := by gcongr
          _ ≤ Real.sqrt L * nrm d * (5 / 4) * Real.sqrt e.kappa := by gcongr
          _ = _ := by ring
      rw [← nrm_sq]
      rcases (nrm_nonneg d).lt_or_eq with h6 | h6
      · have h7 : nrm d ≤ 5 / 4 * Real.sqrt (e.kappa * L) := by
          have : nrm d * nrm d ≤ nrm d * (5 / 4 * Real.sqrt (e.kappa * L)) := by rw [← pow_two]; exact h4
          exact le_of_mul_le_mul_left this h6
        exact pow_le_pow_left₀ h6.le h7 2
      · rw [← h6]; exact pow_le_pow_left₀ le_rfl (by positivity) 2
    calc nrm e'.xc = nrm (e.xc + (e'.xc - e.xc)) := by congr 1; abel
      _ ≤ nrm e.xc + nrm (e'.xc - e.xc) := nrm_add_le _ _
      _ ≤ _ := by linarith

/-- **C94.** Conditions on the first ellipsoid and the number `K` of cuts are enough for every state of the run to be well conditioned. -/
theorem C94_conditions {A : Arith} {u γ ε ξ a m L : ℝ} (hA : A.Accurate u γ n) (hu : 0 ≤ u) (huγ : u ≤ γ) (hn : 2 ≤ n) (ha0 : 0 < a) (ha1 : a ≤ 1) (hε : 2000 * ε ≤ a) (hξ : 1000 * ξ ≤ a)
    (e : Ell n) (he : A.calcInit (n : ℤ) = .ok e.helper) (hd : e.noDeferTrick = false) (hκ : 0 < e.kappa) (hsymm : e.mq.IsSymm) (hm : 0 < m) (hL : 0 < L)
    (hlow : ∀ v : Vec n, m * (v ⬝ᵥ v) ≤ v ⬝ᵥ (e.mq *ᵥ v)) (hup : ∀ v : Vec n, v ⬝ᵥ (e.mq *ᵥ v) ≤ L * (v ⬝ᵥ v))
    (l : List (Method × Vec n × ℝ)) (hr : A.InRange a e l) (h1 : γ * Real.sqrt n * (L / m) * condGrowth n a ^ l.length ≤ ε)
    (h2 : u * (Real.sqrt (e.xc ⬝ᵥ e.xc) + 5 * ((5 / 4) ^ l.length - 1) * Real.sqrt (e.kappa * L)) / Real.sqrt (e.kappa * m * (a ^ 2 / 3) ^ l.length) ≤ ξ) :
    A.WellConditioned u γ ε ξ e l := by
  induction l generalizing e m L with
  | nil => trivial
  | cons t l ih =>
    obtain ⟨mt, g, β⟩ := t
    obtain ⟨hg, hβ0, hβ, hr'⟩ := hr
    have D : CutData A u γ e.mq m L := ⟨hA, hu, huγ, hn, hsymm, hm, hlow, hup⟩
    have hG := one_le_condGrowth hn ha0 ha1
    have hε0 := D.eps_nonneg
    have hκm : 0 < e.kappa * m := mul_pos hκ hm
    have hεi : epsOf n γ m L ≤ ε := by
      refine le_trans ?_ h1
      have : (1 : ℝ) ≤ condGrowth n a ^ (((mt, g, β) :: l).length) := one_le_pow₀ hG
      exact le_mul_of_one_le_right hε0 this
    have hnn := nrm_nonneg e.xc
    have hsL := Real.sqrt_nonneg (e.kappa * L)
    have ha3 : a ^ 2 / 3 ≤ 1 := by nlinarith
    have ha30 : 0 < a ^ 2 / 3 := by positivity
    have hp1 : ∀ k : ℕ, (1 : ℝ) ≤ (5 / 4) ^ k := fun k => one_le_pow₀ (by norm_num)
    change u * (nrm e.xc + _) / _ ≤ ξ at h2
    have hξi : u * nrm e.xc / Real.sqrt (e.kappa * m) ≤ ξ := by
      refine le_trans ?_ h2
      have hk := hp1 (((mt, g, β) :: l).length)
      refine div_le_div₀ (mul_nonneg hu (add_nonneg hnn (mul_nonneg (mul_nonneg (by norm_num) (by linarith)) hsL))) (mul_le_mul_of_nonneg_left ?_ hu) (Real.sqrt_pos.mpr (by positivity)) (Real.sqrt_le_sqrt ?_)
      · have : 0 ≤ 5 * ((5 / 4 : ℝ) ^ (((mt, g, β) :: l).length) - 1) * Real.sqrt (e.kappa * L) := mul_nonneg (mul_nonneg (by norm_num) (by linarith)) hsL
        linarith
      · exact mul_le_of_le_one_right hκm.le (pow_le_one₀ ha30.le ha3)
    obtain ⟨-, F⟩ := Arith.single_step hA hu huγ hn e he hd hκ hsymm hm hlow hup hg mt hβ0 ha0 ha1 hβ (by linarith) (by linarith)
    obtain ⟨m', L', hm', hL', k1, k2, k3, k4, k5, k6⟩ := F.bounds hn hκ hm hL hlow hup (D.btw.posDef.dotProduct_mulVec_pos hg) hβ0 ha0 ha1 hβ hε0 (by linarith) (by linarith)
    refine ⟨⟨m, L, hm, hlow, hup, hεi, hξi⟩, ih _ (by rw [F.helper]; exact he) (by rw [F.defer]; exact hd) F.kappa_pos F.symm hm' hL' k1 k2 hr' ?_ ?_⟩
    · refine le_trans ?_ h1
      rw [List.length_cons, pow_succ']
      have h3 : 0 ≤ γ * Real.sqrt n := mul_nonneg (hu.trans huγ) (Real.sqrt_nonneg _)
      have h4 : 0 ≤ condGrowth n a ^ l.length := by positivity
      calc γ * Real.sqrt n * (L' / m') * condGrowth n a ^ l.length ≤ γ * Real.sqrt n * (L / m * condGrowth n a) * condGrowth n a ^ l.length := by gcongr
        _ = _ := by ring
    · refine le_trans ?_ h2
      change u * (nrm _ + _) / _ ≤ _
      have hk := hp1 l.length
      have hk' : 0 ≤ 5 * ((5 / 4 : ℝ) ^ l.length - 1) := by linarith
      rw [List.length_cons]
      refine div_le_div₀ (mul_nonneg hu (add_nonneg hnn (mul_nonneg (mul_nonneg (by norm_num) (by linarith [hp1 (l.length + 1)])) hsL))) (mul_le_mul_of_nonneg_left ?_ hu) (Real.sqrt_pos.mpr (by positivity)) (Real.sqrt_le_sqrt ?_)
      · have h5 := mul_le_mul_of_nonneg_left k5 hk'
        rw [pow_succ]
        linarith
      · rw [pow_succ']
        have := mul_le_mul_of_nonneg_right k4 (pow_nonneg ha30.le l.length)
        linarith

/-- **C94.** The same for the whole run: `K` cuts, conditions on the first ellipsoid and on `K` only. -/
theorem C94_apriori {A : Arith} {u γ ε ξ a s m L : ℝ} (hA : A.Accurate u γ n) (hu : 0 ≤ u) (huγ : u ≤ γ) (hn : 2 ≤ n) (ha0 : 0 < a) (ha1 : a ≤ 1) (hε : 2000 * ε ≤ a) (hξ : 1000 * ξ ≤ a) (hs : 0 ≤ s)
    (e : Ell n) (he : A.calcInit (n : ℤ) = .ok e.helper) (hd : e.noDeferTrick = false) (hκ : 0 < e.kappa) (hsymm : e.mq.IsSymm) (hm : 0 < m) (hL : 0 < L)
    (hlow : ∀ v : Vec n, m * (v ⬝ᵥ v) ≤ v ⬝ᵥ (e.mq *ᵥ v)) (hup : ∀ v : Vec n, v ⬝ᵥ (e.mq *ᵥ v) ≤ L * (v ⬝ᵥ v))
    (l : List (Method × Vec n × ℝ)) (hr : A.InRange a e l) (h1 : γ * Real.sqrt n * (L / m) * condGrowth n a ^ l.length ≤ ε)
    (h2 : u * (Real.sqrt (e.xc ⬝ᵥ e.xc) + 5 * ((5 / 4) ^ l.length - 1) * Real.sqrt (e.kappa * L)) / Real.sqrt (e.kappa * m * (a ^ 2 / 3) ^ l.length) ≤ ξ) :
    (∀ r ∈ A.statuses e (singleCalls l), r = .ok .success) ∧ (A.run e (singleCalls l)).mq.PosDef ∧ 0 < (A.run e (singleCalls l)).kappa ∧
    ∀ z ∈ e.region, A.Satisfies s z e l → z ∈ ellipsoid (A.run e (singleCalls l)).mq
      ((A.run e (singleCalls l)).kappa * ((inflStep n a ((250 * ε + 2 * ξ) / a) s)^[l.length] 1) ^ 2) (A.run e (singleCalls l)).xc :=
  C94_run hA hu huγ hn ha0 ha1 hε hξ hs e he hd hκ (Between.posDef (m := m) (L := L) ⟨hsymm, hm, hlow, hup⟩) l hr
    (C94_conditions hA hu huγ hn ha0 ha1 hε hξ e he hd hκ hsymm hm hL hlow hup l hr h1 h2)

/-! ### `NoSoln` -/

theorem Arith.mul_self_le {A : Arith} {u γ : ℝ} {N : ℕ} (hA : A.Accurate u γ N) (β : ℝ) : A.mul β β ≤ (1 + u) * β ^ 2 := by
  have := (abs_le.mp (hA.rnd (β * β))).2
  rw [abs_of_nonneg (mul_self_nonneg β)] at this
  change A.rnd (β * β) ≤ _
  nlinarith

/-- A computed `NoSoln` means that the offset reaches the far end of the ellipsoid, up to rounding. -/
theorem Arith.noSoln_offset {A : Arith} {u γ ε ξ : ℝ} (hA : A.Accurate u γ n) (hu : 0 ≤ u) (huγ : u ≤ γ) (hn : 2 ≤ n) (hε : 2000 * ε ≤ 1) (e : Ell n) (hκ : 0 < e.kappa) (hsymm : e.mq.IsSymm)
    (hw : e.WellConditioned u γ ε ξ) {mt : Method} {g : Vec n} {β : ℝ} (h : (A.update e mt (g, .scalar β)).2 = .ok .noSoln) :
    g ≠ 0 ∧ mt.offset β = β ∧ (1 - 6 * ε) * Real.sqrt (e.kappa * (g ⬝ᵥ (e.mq *ᵥ g))) ≤ β := by
  obtain ⟨m, L, hm, hlow, hup, hεi, -⟩ := hw
  change epsOf n γ m L ≤ ε at hεi
  have D : CutData A u γ e.mq m L := ⟨hA, hu, huγ, hn, hsymm, hm, hlow, hup⟩
  have hε0 := D.eps_nonneg
  have huε := D.u_le_eps.trans hεi
  have hg : g ≠ 0 := by
    rintro rfl
    have : ∀ s : Strategy, (A.updateCore e ((0 : Vec n), .scalar β) s).2 = .error .valueError := fun s => by unfold Arith.updateCore; simp
    cases mt
    · have h' := (this (A.calcSingleOrParallel e.helper)).symm.trans h; cases h'
    · have h' := (this (A.calcSingleOrParallelCentralCut e.helper)).symm.trans h; cases h'
    · have h' := (this (A.calcSingleOrParallelQ e.helper)).symm.trans h; cases h'
  have hω : 0 < g ⬝ᵥ (e.mq *ᵥ g) := D.btw.posDef.dotProduct_mulVec_pos hg
  have hoh := D.omega_rel hω (by linarith)
  have R := fun x => (hA.rel hu (by linarith) x).mono (show 2 * u ≤ 2 * ε by linarith)
  have hκω : 0 < e.kappa * (g ⬝ᵥ (e.mq *ᵥ g)) := mul_pos hκ hω
  have rt : Rel (2 * ε + 41 / 10 * ε) (A.mul e.kappa (A.dot g (A.mv e.mq g))) (e.kappa * (g ⬝ᵥ (e.mq *ᵥ g))) :=
    (R _).trans ((hoh.const_mul e.kappa).mono (by linarith))
  have ht0 := rt.pos hκω
  have hτ : 0 < Real.sqrt (e.kappa * (g ⬝ᵥ (e.mq *ᵥ g))) := Real.sqrt_pos.mpr hκω
  have hτ2 := Real.sq_sqrt hκω.le
  have rτ := ((R _).trans rt.sqrt).mono (show 2 * ε + (2 * ε + 41 / 10 * ε) / 2 ≤ 51 / 10 * ε by linarith)
  have h0 : A.dot g (A.mv e.mq g) ≠ 0 := (hoh.pos hω).ne'
  have h0' : ¬ ∀ i, g i = 0 := fun h => hg (funext h)
  have hcore : ∀ s : Strategy, (A.updateCore e (g, .scalar β) s).2 = .ok .noSoln → ∃ r, s (.scalar β) (A.mul e.kappa (A.dot g (A.mv e.mq g))) = .ok (.noSoln, r) := fun s hs => by
    unfold Arith.updateCore at hs
    simp only [if_neg h0', if_neg h0] at hs
    rcases hb : s (.scalar β) (A.mul e.kappa (A.dot g (A.mv e.mq g))) with f | ⟨st, _ | p⟩
    · rw [hb] at hs; cases hs
    · rw [hb] at hs; cases hs; exact ⟨_, rfl⟩
    · rw [hb] at hs; cases hs; exact ⟨_, rfl⟩
  have hps : A.psqrt (A.mul e.kappa (A.dot g (A.mv e.mq g))) = .ok (A.rnd (Real.sqrt (A.mul e.kappa (A.dot g (A.mv e.mq g))))) := by unfold Arith.psqrt; rw [if_neg ht0.not_gt]
  generalize A.mul e.kappa (A.dot g (A.mv e.mq g)) = th at *
  generalize e.kappa * (g ⬝ᵥ (e.mq *ᵥ g)) = t at *
  cases mt with
  | bias =>
    obtain ⟨r, hr⟩ := hcore _ h
    unfold Arith.calcSingleOrParallel Arith.calcBiasCut at hr
    by_cases hβ0 : β ≥ 0
    · simp only [if_pos hβ0] at hr
      by_cases hlt : th < A.mul β β
      · refine ⟨hg, rfl, ?_⟩
        have h1 := Arith.mul_self_le hA β
        have h2 := rt.lower hκω.le (by linarith)
        have h3 : u * β ^ 2 ≤ ε * β ^ 2 := mul_le_mul_of_nonneg_right huε (sq_nonneg β)
        by_contra hc
        push Not at hc
        have h4 : β ^ 2 ≤ ((1 - 6 * ε) * Real.sqrt t) ^ 2 := pow_le_pow_left₀ hβ0 hc.le 2
        rw [mul_pow, hτ2] at h4
        have h5 : (1 + ε) * β ^ 2 ≤ (1 + ε) * ((1 - 6 * ε) ^ 2 * t) := mul_le_mul_of_nonneg_left h4 (by linarith)
        have h6 : (1 + ε) * (1 - 6 * ε) ^ 2 ≤ 1 - (2 * ε + 41 / 10 * ε + (2 * ε + 41 / 10 * ε) ^ 2) := by
          have : 0 ≤ ε := by linarith
          have : ε ^ 2 ≤ ε * (1 / 2000) := by nlinarith
          have : ε ^ 3 ≤ ε ^ 2 * (1 / 2000) := by nlinarith [sq_nonneg ε]
          nlinarith
        have h7 := mul_le_mul_of_nonneg_right h6 hκω.le
        linarith
      · simp only [if_neg hlt, hps, except_ok_bind] at hr
        rcases hb : A.coreBiasCut e.helper.helper β (A.rnd (Real.sqrt th)) with f | p
        · rw [hb] at hr; cases hr
        · rw [hb] at hr; cases hr
    · simp only [if_neg hβ0] at hr
      cases hr
  | central =>
    obtain ⟨r, hr⟩ := hcore _ h
    unfold Arith.calcSingleOrParallelCentralCut at hr
    simp only [hps, except_ok_bind] at hr
    cases hr
  | q =>
    obtain ⟨r, hr⟩ := hcore _ h
    unfold Arith.calcSingleOrParallelQ Arith.calcBiasCutQ at hr
    simp only [hps, except_ok_bind] at hr
    by_cases hlt : A.rnd (Real.sqrt th) < β
    · refine ⟨hg, rfl, ?_⟩
      have h2 := rτ.lower hτ.le (by linarith)
      have h6 : 1 - 6 * ε ≤ 1 - (51 / 10 * ε + (51 / 10 * ε) ^ 2) := by nlinarith
      have h7 := mul_le_mul_of_nonneg_right h6 hτ.le
      linarith
    · simp only [if_neg hlt] at hr
      by_cases hη : A.add (A.rnd (Real.sqrt th)) (A.mul e.helper.nF β) ≤ 0
      · simp only [if_pos hη] at hr; cases hr
      · simp only [if_neg hη] at hr
        rcases hb : A.calcBiasCutFast e.helper.helper β (A.rnd (Real.sqrt th)) (A.add (A.rnd (Real.sqrt th)) (A.mul e.helper.nF β)) with f | p
        · rw [hb] at hr; cases hr
        · rw [hb] at hr; cases hr

/-- **C94.** `NoSoln` at the end of such a run can be trusted up to rounding: no point of the first ellipsoid that satisfies every cut satisfies the last one with a margin of `φ - 1 + 6 ε` half widths. -/
theorem C94_no_soln {A : Arith} {u γ ε ξ a s : ℝ} (hA : A.Accurate u γ n) (hu : 0 ≤ u) (huγ : u ≤ γ) (hn : 2 ≤ n) (ha0 : 0 < a) (ha1 : a ≤ 1) (hε : 2000 * ε ≤ a) (hξ : 1000 * ξ ≤ a) (hs : 0 ≤ s)
    (e : Ell n) (he : A.calcInit (n : ℤ) = .ok e.helper) (hd : e.noDeferTrick = false) (hκ : 0 < e.kappa) (hpd : e.mq.PosDef)
    (l : List (Method × Vec n × ℝ)) (hr : A.InRange a e l) (hw : A.WellConditioned u γ ε ξ e l) (hwl : (A.run e (singleCalls l)).WellConditioned u γ ε ξ)
    {mt : Method} {g : Vec n} {β : ℝ} (hns : (A.update (A.run e (singleCalls l)) mt (g, .scalar β)).2 = .ok .noSoln) {z : Vec n} (hz : z ∈ e.region) (hsat : A.Satisfies s z e l) :
    -(((inflStep n a ((250 * ε + 2 * ξ) / a) s)^[l.length] 1 - 1 + 6 * ε) * Real.sqrt ((A.run e (singleCalls l)).kappa * (g ⬝ᵥ ((A.run e (singleCalls l)).mq *ᵥ g)))) ≤
      g ⬝ᵥ (z - (A.run e (singleCalls l)).xc) + mt.offset β := by
  obtain ⟨-, h2, h3, h4⟩ := C94_run hA hu huγ hn ha0 ha1 hε hξ hs e he hd hκ hpd l hr hw
  have h5 := h4 z hz hsat
  have hsymm : (A.run e (singleCalls l)).mq.IsSymm := by
    have := h2.isHermitian
    rwa [IsHermitian, conjTranspose_eq_transpose_of_trivial] at this
  obtain ⟨hg, ho, hβ⟩ := Arith.noSoln_offset hA hu huγ hn (by linarith) _ h3 hsymm hwl hns
  rw [ho]
  set e' := A.run e (singleCalls l) with he'
  have hc0 : 0 ≤ (250 * ε + 2 * ξ) / a := by
    obtain ⟨m, L, hm, hlow, hup, hεi, hξi⟩ := hwl
    have := CutData.eps_nonneg (A := A) (u := u) (γ := γ) (M := e'.mq) (m := m) (L := L) ⟨hA, hu, huγ, hn, hsymm, hm, hlow, hup⟩
    have h6 : 0 ≤ ε := this.trans hεi
    have h7 : 0 ≤ ξ := le_trans (by positivity) hξi
    positivity
  have hφ := inflStep_iter_ge (n := n) ha0 hc0 hs le_rfl l.length
  set φ := (inflStep n a ((250 * ε + 2 * ξ) / a) s)^[l.length] 1
  rw [← supportSet_eq_ellipsoid h2 (by positivity)] at h5
  have h6 := h5 g
  have hω : 0 ≤ e'.kappa * (g ⬝ᵥ (e'.mq *ᵥ g)) := mul_nonneg h3.le (h2.dotProduct_mulVec_pos hg).le
  have h7 : (g ⬝ᵥ (z - e'.xc)) ^ 2 ≤ (φ * Real.sqrt (e'.kappa * (g ⬝ᵥ (e'.mq *ᵥ g)))) ^ 2 := by
    rw [mul_pow, Real.sq_sqrt hω]; linarith
  have h8 := (abs_le.mp (abs_le_of_sq_le_sq h7 (by positivity))).1
  linarith

/-- Central cuts are always in range. -/
theorem Arith.inRange_central (A : Arith) (e : Ell n) (gs : List (Vec n)) (h : ∀ g ∈ gs, g ≠ 0) : A.InRange 1 e (gs.map fun g => (Method.central, g, (0 : ℝ))) := by
  induction gs generalizing e with
  | nil => trivial
  | cons g gs ih =>
    exact ⟨h g (by simp), le_rfl, by simp [Method.offset], ih _ fun g' hg' => h g' (List.mem_cons_of_mem _ hg')⟩

/-- Double precision, from the unit disc: ten central cuts with any gradients. Every call succeeds, the shape stays positive definite and every point of the disc that satisfies the ten cuts stays in the ellipsoid with semi-axes stretched by
1/100000. -/
example (gs : List (Vec 2)) (hgs : ∀ g ∈ gs, g ≠ 0) (hK : gs.length = 10) : ∃ e : Ell 2, (Arith.ieee 53).ellInit (.scalar 1) 0 = .ok e ∧
    (∀ r ∈ (Arith.ieee 53).statuses e (singleCalls (gs.map fun g => (Method.central, g, (0 : ℝ)))), r = .ok .success) ∧ ((Arith.ieee 53).run e (singleCalls (gs.map fun g => (Method.central, g, (0 : ℝ))))).mq.PosDef ∧
    ∀ z ∈ e.region, (Arith.ieee 53).Satisfies 0 z e (gs.map fun g => (Method.central, g, (0 : ℝ))) → z ∈ ellipsoid ((Arith.ieee 53).run e (singleCalls (gs.map fun g => (Method.central, g, (0 : ℝ))))).mq
      (((Arith.ieee 53).run e (singleCalls (gs.map fun g => (Method.central, g, (0 : ℝ))))).kappa * (1 + 1 / 100000) ^ 2) ((Arith.ieee 53).run e (singleCalls (gs.map fun g => (Method.central, g, (0 : ℝ))))).xc := by
  obtain ⟨c, hc, -⟩ := Arith.core_facts (n := 2) (Arith.ieee_accurate 53 2) (by positivity) (by norm_num) le_rfl
  have hi : (Arith.ieee 53).ellInit (.scalar 1) (0 : Vec 2) = .ok { mq := 1, xc := 0, kappa := 1, tsq := 0, helper := c, noDeferTrick := false } := by
    unfold Arith.ellInit
    rw [hc]
    rfl
  refine ⟨_, hi, ?_⟩
  have h2 : Real.sqrt 2 ≤ 3 / 2 := by rw [Real.sqrt_le_left (by norm_num)]; norm_num
  have hlen : (gs.map fun g => (Method.central, g, (0 : ℝ))).length = 10 := by rw [List.length_map, hK]
  obtain ⟨h3, h4, h5, h6⟩ := C94_apriori (ε := 3 / 10 ^ 10) (ξ := 2 / 10 ^ 12) (a := 1) (s := 0) (m := 1) (L := 1) (Arith.ieee_accurate 53 2) (by positivity) (by norm_num) le_rfl one_pos le_rfl (by norm_num) (by norm_num) le_rfl
    ({ mq := 1, xc := 0, kappa := 1, tsq := 0, helper := c, noDeferTrick := false } : Ell 2) hc rfl one_pos Matrix.isSymm_one one_pos one_pos (fun v => by simp) (fun v => by simp)
    (gs.map fun g => (Method.central, g, (0 : ℝ))) (Arith.inRange_central _ _ _ hgs)
    (by
      rw [hlen]
      push_cast
      calc ((1 + (2 : ℝ)⁻¹ ^ 53) ^ (2 + 1) - 1) * Real.sqrt 2 * (1 / 1) * condGrowth 2 1 ^ 10 ≤ ((1 + (2 : ℝ)⁻¹ ^ 53) ^ (2 + 1) - 1) * (3 / 2) * (1 / 1) * condGrowth 2 1 ^ 10 := by
            unfold condGrowth; gcongr
        _ ≤ _ := by unfold condGrowth; norm_num)
    (by
      rw [hlen]
      have : Real.sqrt (1 * 1 * (1 ^ 2 / 3) ^ 10) = (1 / 3) ^ 5 := by
        rw [show (1 * 1 * (1 ^ 2 / 3) ^ 10 : ℝ) = ((1 / 3) ^ 5) ^ 2 by norm_num, Real.sqrt_sq (by positivity)]
      rw [this]
      norm_num)
  refine ⟨h3, h4, fun z hz hs => ellipsoid_mono (mul_le_mul_of_nonneg_left (pow_le_pow_left₀ ?_ ?_ 2) h5.le) (h6 z hz hs)⟩
  · exact zero_le_one.trans (inflStep_iter_ge one_pos (by norm_num) le_rfl le_rfl _)
  · rw [C94_inflation, hlen]
    norm_num [Finset.sum_range_succ]

end Ellalgo
