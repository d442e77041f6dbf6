import Verif.Lemmas.RoundedParallel

/-!
# Parallel cuts in floating point: the central parallel cut and the update
-/

namespace Ellalgo

open Matrix Spec EllCalcCore

variable {n : ℕ}

/-- `parParams` with `β0 = 0` in the form used by `calc_parallel_central_cut`. -/
theorem parParams_central {N β1 T : ℝ} (hN : 2 ≤ N) (hT : 0 < T) (hb : β1 * β1 / T ≤ 101 / 100) :
    let a := β1 * β1 / T
    let k := N / 2 * a
    let S := Real.sqrt (1 - a + k * k)
    1 + k * k ≤ 3 * (1 - a + k * k) ∧ 0 ≤ a ∧ 1 ≤ k + S ∧ parParams N 0 β1 T = { rho := β1 / (k + S + 1), sigma := 2 / (k + S + 1), delta := (k + S) / (k + S - 1 / N) } := by
  intro a k S
  have ha0 : 0 ≤ a := div_nonneg (mul_self_nonneg _) hT.le
  have hka : a ≤ k := by
    have : 1 * a ≤ N / 2 * a := mul_le_mul_of_nonneg_right (by linarith) ha0
    exact le_trans (by linarith) this
  have h3 : 1 + k * k ≤ 3 * (1 - a + k * k) := by nlinarith [sq_nonneg (a - 3 / 4)]
  have harg : 0 ≤ 1 - a + k * k := by nlinarith [mul_self_nonneg k]
  have hS0 : 0 ≤ S := Real.sqrt_nonneg _
  have hSsq : S ^ 2 = 1 - a + k * k := Real.sq_sqrt harg
  have hr1 : 1 ≤ k + S := by
    by_contra hc
    have h1 : S < 1 - k := by linarith
    have h2 : S ^ 2 < (1 - k) ^ 2 := by nlinarith
    have h4 : 2 * k = N * a := by simp only [k]; ring
    nlinarith
  refine ⟨h3, ha0, hr1, ?_⟩
  have hxi : parXi N 0 β1 T = T * S := parXi_zero hT
  have hbb : β1 * β1 = a * T := by simp only [a]; field_simp
  have hden : parDen N 0 β1 T = T * (k + S + 1) := by
    unfold parDen; rw [hxi]
    have : (0 + β1) ^ 2 = a * T := by rw [← hbb]; ring
    rw [this]; simp only [k]; ring
  have hrp : k + S + 1 ≠ 0 := by linarith
  have hin : 1 / N < 1 := by rw [div_lt_one (by linarith)]; linarith
  have hrn : k + S - 1 / N ≠ 0 := by linarith
  have hN0 : N ≠ 0 := by linarith
  simp only [parParams, hden, hxi]
  have hs : 2 * (T + N * (0 * β1)) / (T * (k + S + 1)) = 2 / (k + S + 1) := by
    rw [zero_mul, mul_zero, add_zero, mul_comm T, mul_div_mul_right _ _ hT.ne']
  rw [hs]
  congr 1
  · field_simp; ring
  · have hn2 : N ^ 2 - 1 ≠ 0 := by nlinarith
    have : (T - 0 * 0 + (T - β1 * β1)) / 2 + T * S / N = T * (1 - a / 2 + S / N) := by
      rw [hbb]; ring
    rw [this, show N * N / (N * N - 1) * (T * (1 - a / 2 + S / N)) / T =
      N ^ 2 / (N ^ 2 - 1) * (1 - a / 2 + S / N) by field_simp]
    rw [eq_div_iff hrn]
    have hk2 : k = N / 2 * a := rfl
    have hrn2 : N ^ 2 * (1 - a / 2 + S / N) * (k + S - 1 / N) = (N ^ 2 - 1) * (k + S) := by
      rw [hk2] at hSsq ⊢
      field_simp
      linear_combination (4 * N) * hSsq
    rw [div_mul_eq_mul_div, div_mul_eq_mul_div, hrn2, mul_div_cancel_left₀ _ hn2]

set_option maxHeartbeats 1000000 in
/-- The central parallel cut. -/
theorem Arith.parCentral_rel {A : Arith} {u γ ε a τ β1 th : ℝ} {N : ℕ} (hA : A.Accurate u γ N) (hu : 0 ≤ u) (huε : u ≤ ε) (hn : 2 ≤ n) {c : EllCalc} (hh : c.helper.halfN = A.div n 2) (hi : c.helper.invN = A.div 1 n)
    (W : WideSlab a τ 0 β1) (hth : Rel (61 / 10 * ε) th (τ ^ 2)) (hε : 100000 * ε ≤ a ^ 4) :
    ∃ p, A.calcParallelCentralCut c.helper β1 th = .ok p ∧ ParRel (170 * (ε / a ^ 2)) p (parParams n 0 β1 (τ ^ 2)) := by
  have hn2 : (2 : ℝ) ≤ n := by exact_mod_cast hn
  have hε0 : 0 ≤ ε := hu.trans huε
  have hτ2 := pow_pos W.tau 2
  obtain ⟨he1, -, -, he4, he5⟩ := eps_a hε0 W.a_pos W.a_le hε
  have R := fun x => (hA.rel hu (by linarith) x).mono (show 2 * u ≤ 2 * ε by linarith)
  have hb1 := W.b1_pos
  have hq1 : β1 * β1 / τ ^ 2 ≤ 101 / 100 := by
    rw [div_le_iff₀ hτ2]
    have := W.b1
    nlinarith
  obtain ⟨h3, hq0, hr1, hpar⟩ := parParams_central hn2 hτ2 hq1
  rw [hpar]
  have hth0 := hth.pos hτ2
  have rq : Rel (2 * ε + (2 * ε + 61 / 10 * ε)) (A.div (A.mul β1 β1) th) (β1 * β1 / τ ^ 2) := (R _).trans ((R _).div hth)
  generalize hqh : A.div (A.mul β1 β1) th = qh at *
  generalize β1 * β1 / τ ^ 2 = q at *
  have rh : Rel (2 * ε) (A.div n 2) (n / 2) := R _
  have rk : Rel (2 * ε + (2 * ε + (2 * ε + (2 * ε + 61 / 10 * ε)))) (A.mul (A.div n 2) qh) (n / 2 * q) := (R _).trans (rh.mul rq)
  have hk0 : 0 ≤ (n : ℝ) / 2 * q := by positivity
  generalize hkd : (n : ℝ) / 2 * q = k at *
  obtain ⟨kh, hkh⟩ : ∃ kh, kh = A.mul (A.div n 2) qh := ⟨_, rfl⟩
  rw [← hkh] at rk
  have rkk : Rel (2 * ε + (2 * ε + (2 * ε + (2 * ε + (2 * ε + 61 / 10 * ε))) + (2 * ε + (2 * ε + (2 * ε + (2 * ε + 61 / 10 * ε)))))) (A.mul kh kh) (k * k) := (R _).trans (rk.mul rk)
  have hkk0 := mul_self_nonneg k
  have rX : Rel (97 * ε) (A.add (A.sub 1 qh) (A.mul kh kh)) (1 - q + k * k) := by
    have hX0 : 0 < 1 - q + k * k := by linarith
    have hεX : 0 ≤ ε * (1 - q + k * k) := by positivity
    have e1 : |qh - q| ≤ 104 / 10 * ε := by
      refine (rq.abs_sub_le hq0 (by linarith)).trans ?_
      have : (2 * ε + (2 * ε + 61 / 10 * ε)) + (2 * ε + (2 * ε + 61 / 10 * ε)) ^ 2 ≤ 1025 / 100 * ε := by nlinarith
      exact (mul_le_mul this hq1 hq0 (by linarith)).trans (by linarith)
    have e2 : |A.mul kh kh - k * k| ≤ 304 / 10 * (ε * (k * k)) := by
      refine (rkk.abs_sub_le hkk0 (by linarith)).trans ?_
      rw [← mul_assoc (304 / 10 : ℝ)]
      exact mul_le_mul_of_nonneg_right (by nlinarith) hkk0
    have e3 : |A.sub 1 qh - (1 - q)| ≤ 12 * ε := by
      have := hA.rnd_err (w := ε) (Y := 101 / 100) (x := 1 - qh) (y := 1 - q) (e := 104 / 10 * ε) hε0 huε (by rw [show 1 - qh - (1 - q) = -(qh - q) by ring, abs_neg]; exact e1) (by rw [abs_le]; constructor <;> linarith)
      refine this.trans ?_
      nlinarith
    have e4 : |A.sub 1 qh + A.mul kh kh - (1 - q + k * k)| ≤ 31 * (ε * (1 + k * k)) := by
      rw [add_sub_add_comm]
      refine (abs_add_le _ _).trans ?_
      have : 0 ≤ ε * (k * k) := by positivity
      linarith
    have e5 : ε * (1 + k * k) ≤ ε * (3 * (1 - q + k * k)) := mul_le_mul_of_nonneg_left h3 hε0
    have e6 := hA.rnd_err (w := ε) (Y := 1 - q + k * k) (e := 93 * (ε * (1 - q + k * k))) hε0 huε (by linarith) (by rw [abs_of_pos hX0])
    have e7 : ε * (ε * (1 - q + k * k)) ≤ 1 / 100000 * (ε * (1 - q + k * k)) := mul_le_mul_of_nonneg_right he4 hεX
    refine (Rel.of_abs_small (r := 95 * ε) ?_ (by linarith) (by linarith)).mono (by linarith)
    rw [abs_of_pos hX0]
    refine (show |A.add (A.sub 1 qh) (A.mul kh kh) - (1 - q + k * k)| ≤ _ from e6).trans ?_
    linarith
  have hX0 : 0 < 1 - q + k * k := by linarith
  have hXh := rX.pos hX0
  have rS := (R _).trans rX.sqrt
  have hps : A.psqrt (A.add (A.sub 1 qh) (A.mul kh kh)) = .ok (A.rnd (Real.sqrt (A.add (A.sub 1 qh) (A.mul kh kh)))) := by unfold Arith.psqrt; rw [if_neg hXh.not_gt]
  have hS0 : 0 < Real.sqrt (1 - q + k * k) := Real.sqrt_pos.mpr hX0
  generalize A.rnd (Real.sqrt (A.add (A.sub 1 qh) (A.mul kh kh))) = Sh at *
  generalize Real.sqrt (1 - q + k * k) = S at *
  have rr : Rel (2 * ε + 505 / 10 * ε) (A.add kh Sh) (k + S) := by
    rw [add_comm k S]
    have : A.add kh Sh = A.rnd (Sh + kh) := by unfold Arith.add; rw [add_comm]
    rw [this]
    exact (R _).trans ((rS.mono (by linarith)).add (rk.mono (by linarith)) hS0 hk0)
  obtain ⟨rh', hrh⟩ : ∃ rh', rh' = A.add kh Sh := ⟨_, rfl⟩
  rw [← hrh] at rr
  generalize hrd : k + S = r at *
  have hr0 : 0 < r := by linarith
  have rr1 : Rel (2 * ε + 525 / 10 * ε) (A.add rh' 1) (r + 1) := (R _).trans ((rr.mono (by linarith)).add (Rel.refl (by positivity) 1) hr0 zero_le_one)
  have hr1' := rr1.pos (by linarith)
  have hin : (1 : ℝ) / n ≤ 1 / 2 := by rw [div_le_div_iff₀ (by linarith) (by norm_num)]; linarith
  have hin0 : (0 : ℝ) ≤ 1 / n := by positivity
  have rd : Rel (111 * ε) (A.sub rh' (A.div 1 n)) (r - 1 / n) := by
    have hd0 : 0 < r - 1 / n := by linarith
    have e1 : |rh' - r| ≤ 53 * (ε * r) := by
      refine (rr.abs_sub_le hr0.le (by linarith)).trans ?_
      rw [← mul_assoc (53 : ℝ)]
      exact mul_le_mul_of_nonneg_right (by nlinarith) hr0.le
    have e2 : |A.div 1 n - 1 / n| ≤ ε * (1 / n) := by
      refine (hA.rnd (1 / n)).trans ?_
      rw [abs_of_nonneg hin0]
      exact mul_le_mul_of_nonneg_right huε hin0
    have e3 : ε * (1 / n) ≤ ε * (r - 1 / n) := mul_le_mul_of_nonneg_left (by linarith) hε0
    have e4 : ε * r ≤ ε * (2 * (r - 1 / n)) := mul_le_mul_of_nonneg_left (by linarith) hε0
    have e5 : |rh' - A.div 1 n - (r - 1 / n)| ≤ 107 * (ε * (r - 1 / n)) := by
      rw [sub_sub_sub_comm]
      refine (abs_sub _ _).trans ?_
      linarith
    have e6 := hA.rnd_err (w := ε) (Y := r - 1 / n) hε0 huε e5 (by rw [abs_of_pos hd0])
    have e7 : ε * (ε * (r - 1 / n)) ≤ 1 / 100000 * (ε * (r - 1 / n)) := mul_le_mul_of_nonneg_right he4 (by positivity)
    have e8 : 0 ≤ ε * (r - 1 / n) := by positivity
    refine (Rel.of_abs_small (r := 1081 / 10 * ε) ?_ (by linarith) (by linarith)).mono (by linarith)
    rw [abs_of_pos hd0]
    refine (show |A.sub rh' (A.div 1 n) - (r - 1 / n)| ≤ _ from e6).trans ?_
    linarith
  have hd := rd.pos (by linarith)
  have rρ : Rel _ (A.div β1 (A.add rh' 1)) (β1 / (r + 1)) := (R _).trans (rr1.const_div β1)
  have rσ : Rel _ (A.div 2 (A.add rh' 1)) (2 / (r + 1)) := (R _).trans (rr1.const_div 2)
  have rδ : Rel _ (A.div rh' (A.sub rh' (A.div 1 n))) (r / (r - 1 / n)) := (R _).trans (rr.div rd)
  refine ⟨⟨_, _, _⟩, by
    unfold Arith.calcParallelCentralCut
    simp only [hh, hi, hqh, Arith.pdiv, if_neg hth0.ne', except_ok_bind, ← hkh, hps, ← hrh, if_neg hr1'.ne', if_neg hd.ne']
    rfl, rρ.mono (by linarith), rσ.mono (by linarith), rδ.mono (by linarith)⟩

theorem inflation_arith_pair {e z : ℝ} (he0 : 0 ≤ e) (he : e ≤ 1 / 100000) (hz0 : 0 ≤ z) (hz : z ≤ 1 / 1000) :
    (1 + 173 * e) * (1 + (2 * z + 370 * e)) ^ 2 / (1 - 1520 * e) ≤ 1 + 2500 * e + 5 * z := by
  have h1 : 0 < 1 - 1520 * e := by linarith
  rw [div_le_iff₀ h1]
  have hy : 2 * z + 370 * e ≤ 57 / 10000 := by linarith
  have hy0 : 0 ≤ 2 * z + 370 * e := by positivity
  have h2 : (1 + (2 * z + 370 * e)) ^ 2 ≤ 1 + (2 + 57 / 10000) * (2 * z + 370 * e) := by nlinarith
  have h3 : (1 + 173 * e) * (1 + (2 * z + 370 * e)) ^ 2 ≤ (1 + 173 * e) * (1 + (2 + 57 / 10000) * (2 * z + 370 * e)) := mul_le_mul_of_nonneg_left h2 (by positivity)
  refine h3.trans ?_
  have h4 : e * e ≤ e * (1 / 100000) := mul_le_mul_of_nonneg_left he he0
  have h5 : z * e ≤ z * (1 / 100000) := mul_le_mul_of_nonneg_left he hz0
  nlinarith

set_option maxHeartbeats 1000000 in
/-- The update with the parameters of a parallel cut, in floating point. -/
theorem CutData.par_contains {A : Arith} {u γ m L : ℝ} {M : Mat n} (D : CutData A u γ M m L) {κ β0 β1 η : ℝ} (hκ : 0 < κ) {x0 g : Vec n} (hω : 0 < g ⬝ᵥ (M *ᵥ g)) (W : WideSlab η (Real.sqrt (κ * (g ⬝ᵥ (M *ᵥ g)))) β0 β1) {a c κh : ℝ}
    (ha : Rel (177 * (epsOf n γ m L / η ^ 2)) a ((parParams n β0 β1 (Real.sqrt (κ * (g ⬝ᵥ (M *ᵥ g))) ^ 2)).rho / (g ⬝ᵥ (M *ᵥ g))))
    (hc : Rel (177 * (epsOf n γ m L / η ^ 2)) c ((parParams n β0 β1 (Real.sqrt (κ * (g ⬝ᵥ (M *ᵥ g))) ^ 2)).sigma / (g ⬝ᵥ (M *ᵥ g))))
    (hk : Rel (172 * (epsOf n γ m L / η ^ 2)) κh (κ * (parParams n β0 β1 (Real.sqrt (κ * (g ⬝ᵥ (M *ᵥ g))) ^ 2)).delta))
    (hε : 100000 * epsOf n γ m L ≤ η ^ 4) (hξ : 1000 * (u * nrm x0 / Real.sqrt (κ * m)) ≤ η) :
    0 < κh ∧ (∀ v : Vec n, v ≠ 0 → 0 < v ⬝ᵥ ((fun i j => A.sub (M i j) (A.mul c (A.mul (A.mv M g i) (A.mv M g j))) : Mat n) *ᵥ v)) ∧
    (∀ φ s : ℝ, 1 ≤ φ → 0 ≤ s → ∀ x, x ∈ supportSet M (κ * φ ^ 2) x0 → g ⬝ᵥ (x - x0) + β0 ≤ s * Real.sqrt (κ * (g ⬝ᵥ (M *ᵥ g))) → -(s * Real.sqrt (κ * (g ⬝ᵥ (M *ᵥ g)))) ≤ g ⬝ᵥ (x - x0) + β1 →
      x ∈ supportSet (fun i j => A.sub (M i j) (A.mul c (A.mul (A.mv M g i) (A.mv M g j))))
        (κh * ((1 + 2500 * (epsOf n γ m L / η ^ 4) + 5 * (u * nrm x0 / Real.sqrt (κ * m) / η)) * (1 + 3 / η * (φ - 1 + s)) ^ 2)) (fun i => A.sub (x0 i) (A.mul a (A.mv M g i)))) ∧
    (∀ v : Vec n, (1 - (parParams n β0 β1 (Real.sqrt (κ * (g ⬝ᵥ (M *ᵥ g))) ^ 2)).sigma - 190 * (epsOf n γ m L / η ^ 2)) * (v ⬝ᵥ (M *ᵥ v)) ≤ v ⬝ᵥ ((fun i j => A.sub (M i j) (A.mul c (A.mul (A.mv M g i) (A.mv M g j))) : Mat n) *ᵥ v) ∧
      v ⬝ᵥ ((fun i j => A.sub (M i j) (A.mul c (A.mul (A.mv M g i) (A.mv M g j))) : Mat n) *ᵥ v) ≤ (1 + 190 * (epsOf n γ m L / η ^ 2)) * (v ⬝ᵥ (M *ᵥ v))) ∧
    (∀ v : Vec n, |v ⬝ᵥ ((fun i => A.sub (x0 i) (A.mul a (A.mv M g i))) - x0)| ≤ Real.sqrt (v ⬝ᵥ (M *ᵥ v)) * (1 + (u * nrm x0 / Real.sqrt (κ * m) + 185 * (epsOf n γ m L / η ^ 2))) * Real.sqrt κ) ∧
    |κh - κ * (parParams n β0 β1 (Real.sqrt (κ * (g ⬝ᵥ (M *ᵥ g))) ^ 2)).delta| ≤ 173 * (epsOf n γ m L / η ^ 2) * (κ * (parParams n β0 β1 (Real.sqrt (κ * (g ⬝ᵥ (M *ᵥ g))) ^ 2)).delta) := by
  have hn2 : (2 : ℝ) ≤ n := by exact_mod_cast D.two_le
  have hε0 : 0 ≤ epsOf n γ m L := D.eps_nonneg
  have hξ0 : 0 ≤ u * nrm x0 / Real.sqrt (κ * m) := by have := D.u_nonneg; have := nrm_nonneg x0; positivity
  obtain ⟨ξ, hξd⟩ : ∃ ξ, ξ = u * nrm x0 / Real.sqrt (κ * m) := ⟨_, rfl⟩
  obtain ⟨ω, hωd⟩ : ∃ ω, ω = g ⬝ᵥ (M *ᵥ g) := ⟨_, rfl⟩
  obtain ⟨ε, hεd⟩ : ∃ ε, ε = epsOf n γ m L := ⟨_, rfl⟩
  rw [← hξd] at hξ hξ0 ⊢
  rw [← hωd] at W ha hc hk hω ⊢
  rw [← hεd] at ha hc hk hε hε0 ⊢
  obtain ⟨τ, hτd⟩ : ∃ τ, τ = Real.sqrt (κ * ω) := ⟨_, rfl⟩
  rw [← hτd] at W ha hc hk ⊢
  have hτ : 0 < τ := W.tau
  have hη0 := W.a_pos
  have hη1 := W.a_le
  have hτ2 : τ ^ 2 = κ * ω := by rw [hτd]; exact Real.sq_sqrt (by positivity)
  have hinfl := fun (φ s : ℝ) (hφ : 1 ≤ φ) (hs : 0 ≤ s) => W.sound_infl (N := n) hn2 hφ hs
  have hρτ := W.rho_le hn2
  have hρ0 := W.rho_nonneg hn2
  have hσ0 := (W.sigma_pos hn2).le
  have hσ := W.sigma_lt hn2
  have hs8 := W.one_sub_sigma_ge hn2
  have hsq := W.sqrt_ge hn2
  have hδ := W.delta_pos hn2
  obtain ⟨he1, -, he3, he4, he5⟩ := eps_a hε0 hη0 hη1 hε
  obtain ⟨p, hp⟩ : ∃ p, p = parParams n β0 β1 (τ ^ 2) := ⟨_, rfl⟩
  rw [← hp] at hρτ hρ0 hσ0 hs8 hσ hsq hδ ha hc hk ⊢
  simp only [← hp] at hinfl
  have hσ1 := hσ.le
  have hη4 : 0 < η ^ 4 := by positivity
  have he24 : ε / η ^ 2 ≤ ε / η ^ 4 := div_le_div_of_nonneg_left hε0 hη4 (by nlinarith [pow_pos hη0 2])
  have he34 : ε / η ^ 2 = ε / η ^ 4 * η ^ 2 := by field_simp
  obtain ⟨e, hed⟩ : ∃ e, e = ε / η ^ 2 := ⟨_, rfl⟩
  rw [← hed] at ha hc hk he1 he3 he24 he34 ⊢
  have he0 : 0 ≤ e := hε0.trans he1
  have hel : e ≤ 1 / 100000 := by linarith
  have hf0 : 0 ≤ ε / η ^ 4 := by positivity
  have hf1 : ε / η ^ 4 ≤ 1 / 100000 := by rw [div_le_iff₀ hη4]; linarith
  obtain ⟨f, hfd⟩ : ∃ f, f = ε / η ^ 4 := ⟨_, rfl⟩
  rw [← hfd] at he24 he34 hf0 hf1 ⊢
  have hE : ∀ {a' b' : ℝ}, 0 ≤ b' → Rel (177 * e) a' b' → |a' - b'| ≤ 178 * e * b' := fun {a' b'} hb' h => by
    refine (h.abs_sub_le hb' (by linarith)).trans (mul_le_mul_of_nonneg_right ?_ hb')
    nlinarith
  have hz0 : 0 ≤ ξ / η := by positivity
  have hz1 : ξ / η ≤ 1 / 1000 := by rw [div_le_iff₀ hη0]; linarith
  have hκδ : 0 < κ * p.delta := mul_pos hκ hδ
  have hκh : 0 < κh := hk.pos hκδ
  have h172 : 172 * e + (172 * e) ^ 2 ≤ 173 * e := by nlinarith
  have hkk : κ * p.delta ≤ (1 + 173 * e) * κh := by
    have h1 := (abs_le.mp (hk.symm.abs_sub_le hκh.le (by linarith))).2
    have h3 := mul_le_mul_of_nonneg_right h172 hκh.le
    linarith
  have hmain := fun (Φ : ℝ) (hΦ : 1 ≤ Φ) => D.update_contains hκ (x0 := x0) (g := g) (by rw [← hωd]; exact hω) (ρ := p.rho) (σ := p.sigma) (δ := p.delta * Φ ^ 2) (a := a) (c := c) (κh := κh) (E := 178 * e)
    (k := (1 + 173 * e) * Φ ^ 2) (r := 1) (b := 190 * e) (d := ξ + 185 * e) hρ0 hσ0 hσ (by positivity)
    (by rw [← hωd]; exact hE (by positivity) ha) (by rw [← hωd]; exact hE (by positivity) hc) (by positivity) (by linarith) (by rw [← hεd]; linarith)
    (by have := mul_le_mul_of_nonneg_right hkk (sq_nonneg Φ); linarith)
    (by rw [← hωd, ← hτd]; exact hρτ)
    (by
      rw [← hεd]
      have h1 : 178 * e + (1 + 178 * e) * (8 * ε) ≤ 189 * e := by nlinarith
      have h2 : p.sigma * (178 * e + (1 + 178 * e) * (8 * ε)) ≤ 1 * (189 * e) := mul_le_mul hσ1 h1 (by positivity) zero_le_one
      linarith)
    (by
      rw [← hεd, ← hξd]
      have h1 : 3 * ε + 4 * ε ^ 2 ≤ 4 * ε := by nlinarith
      have h2 : (1 + 178 * e) * (3 * ε + 4 * ε ^ 2) ≤ (1 + 178 * e) * (4 * ε) := mul_le_mul_of_nonneg_left h1 (by positivity)
      nlinarith)
    (by nlinarith)
  rw [← hωd] at hmain
  obtain ⟨hpos, -, hshape, hcentre⟩ := hmain 1 le_rfl
  refine ⟨hκh, hpos, fun φ s hφ hs x hx hcut0 hcut1 => ?_, hshape, hcentre, ?_⟩
  swap
  · exact (hk.abs_sub_le hκδ.le (by linarith)).trans (mul_le_mul_of_nonneg_right h172 hκδ.le)
  have hso := hinfl φ s hφ hs
  have hΦ1 : 1 ≤ 1 + 3 / η * (φ - 1 + s) := by
    have : 0 ≤ 3 / η * (φ - 1 + s) := mul_nonneg (by positivity) (by linarith)
    linarith
  generalize 1 + 3 / η * (φ - 1 + s) = Φ at *
  have hx1 : x ∈ supportSet (M - (p.sigma / ω) • vecMulVec (M *ᵥ g) (M *ᵥ g)) (κ * (p.delta * Φ ^ 2)) (x0 - (p.rho / ω) • (M *ᵥ g)) := by
    rw [hτ2] at hso
    have hφ0 : 0 < φ := by linarith
    have hsl : x ∈ slab g (β0 - s * τ) (β1 + s * τ) x0 := ⟨by linarith, by linarith⟩
    have := slab_update_support (M := M) D.btw.posSemidef (κ := κ * φ ^ 2) (by positivity) (g := g) (c := x0) (x := x) (by rw [← hωd]; exact hω) (p := { p with delta := p.delta * Φ ^ 2 / φ ^ 2 })
      (by rw [← hωd, show κ * φ ^ 2 * ω = φ ^ 2 * (κ * ω) by ring]; exact hso) hx hsl
    rw [← hωd, show κ * φ ^ 2 * (p.delta * Φ ^ 2 / φ ^ 2) = κ * (p.delta * Φ ^ 2) by field_simp] at this
    exact this
  have hnn : ∀ v : Vec n, 0 ≤ v ⬝ᵥ ((fun i j => A.sub (M i j) (A.mul c (A.mul (A.mv M g i) (A.mv M g j))) : Mat n) *ᵥ v) := fun v => by
    by_cases hv : v = 0
    · subst hv; simp
    · exact (hpos v hv).le
  refine supportSet_mono hnn (mul_le_mul_of_nonneg_left ?_ hκh.le) ((hmain Φ hΦ1).2.1 x hx1)
  have hfac : (1 + 173 * e) * (1 + (ξ + 185 * e) / Real.sqrt (p.delta * Φ ^ 2 * (1 - p.sigma))) ^ 2 / (1 - 190 * e / (1 - p.sigma)) ≤ 1 + 2500 * f + 5 * (ξ / η) := by
    refine le_trans ?_ (inflation_arith_pair hf0 hf1 hz0 hz1)
    have hb1 : 190 * e / (1 - p.sigma) ≤ 1520 * f := by
      rw [div_le_iff₀ (by linarith)]
      calc 190 * e = 1520 * f * (η ^ 2 / 8) := by rw [he34]; ring
        _ ≤ _ := mul_le_mul_of_nonneg_left hs8 (by positivity)
    have hb2 : 0 < 1 - 1520 * f := by linarith
    have hsq' : η / 2 ≤ Real.sqrt (p.delta * Φ ^ 2 * (1 - p.sigma)) := by
      refine hsq.trans (Real.sqrt_le_sqrt ?_)
      have h1 : 1 ≤ Φ ^ 2 := one_le_pow₀ hΦ1
      have h2 : 0 ≤ p.delta * (1 - p.sigma) := mul_nonneg hδ.le (by linarith)
      nlinarith
    have hd1 : (ξ + 185 * e) / Real.sqrt (p.delta * Φ ^ 2 * (1 - p.sigma)) ≤ 2 * (ξ / η) + 370 * f := by
      rw [div_le_iff₀ (lt_of_lt_of_le (by positivity) hsq')]
      have h1 : ξ + 185 * e ≤ (2 * (ξ / η) + 370 * f) * (η / 2) := by
        have h3 : e ≤ f * η := by rw [he34]; exact mul_le_mul_of_nonneg_left (by nlinarith) hf0
        have h4 : ξ / η * η = ξ := div_mul_cancel₀ _ hη0.ne'
        nlinarith
      exact h1.trans (mul_le_mul_of_nonneg_left hsq' (by positivity))
    have hd2 : 0 ≤ (ξ + 185 * e) / Real.sqrt (p.delta * Φ ^ 2 * (1 - p.sigma)) := by positivity
    gcongr
  calc _ = (1 + 173 * e) * (1 + (ξ + 185 * e) / Real.sqrt (p.delta * Φ ^ 2 * (1 - p.sigma))) ^ 2 / (1 - 190 * e / (1 - p.sigma)) * Φ ^ 2 := by ring
    _ ≤ (1 + 2500 * f + 5 * (ξ / η)) * Φ ^ 2 := mul_le_mul_of_nonneg_right hfac (sq_nonneg Φ)

end Ellalgo
