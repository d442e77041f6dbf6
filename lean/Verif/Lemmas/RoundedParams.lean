import Verif.Lemmas.RoundedGeom
import Verif.Lemmas.Rel
import Verif.Lemmas.EllUpdate

/-! # The rounded parameters of a cut, and the rounded update as a whole -/

namespace Ellalgo

open Matrix Spec

variable {n : ℕ}

/-- The constants of `EllCalcCore` are accurate. -/
theorem Arith.core_facts {A : Arith} {u γ : ℝ} {N : ℕ} (hA : A.Accurate u γ N) (hu : 0 ≤ u) (hu2 : u ≤ 1 / 10) (hn : 2 ≤ n) :
    ∃ c : EllCalc, A.calcInit (n : ℤ) = .ok c ∧ c.useParallelCut = true ∧ c.nF = n ∧ c.helper.nF = n ∧ Rel (4 * u) c.helper.cst0 (1 / (n + 1)) ∧
      Rel (6 * u) c.helper.cst2 (2 / (n + 1)) ∧ Rel (9 * u) c.helper.cst1 ((n : ℝ) ^ 2 / ((n : ℝ) ^ 2 - 1)) := by
  have hn' : (2 : ℝ) ≤ n := by exact_mod_cast hn
  have R := fun x => hA.rel hu (by linarith) x
  have r1 : Rel (2 * u) (A.add n 1) (n + 1) := R _
  have r2 : Rel (2 * u) (A.mul n n) ((n : ℝ) ^ 2) := by rw [pow_two]; exact R _
  have hp1 : 0 < A.add n 1 := r1.pos (by linarith)
  have hn2 : (4 : ℝ) ≤ (n : ℝ) ^ 2 := by nlinarith
  have r3 : Rel (8 / 3 * u) (A.mul n n - 1) ((n : ℝ) ^ 2 - 1) := by
    have : |A.mul n n - (n : ℝ) ^ 2| ≤ u * (n : ℝ) ^ 2 := by
      have := hA.rnd ((n : ℝ) * n)
      rw [abs_of_nonneg (by positivity : (0 : ℝ) ≤ (n : ℝ) * n)] at this
      rw [pow_two]; exact this
    have h2 := Rel.of_abs (a := A.mul n n - 1) (b := (n : ℝ) ^ 2 - 1) (r := 4 / 3 * u) (by
      rw [sub_sub_sub_cancel_right, abs_of_pos (by linarith : (0 : ℝ) < (n : ℝ) ^ 2 - 1)]
      nlinarith) (by linarith) (by linarith)
    exact h2.mono (by linarith)
  have r4 : Rel (2 * u + 8 / 3 * u) (A.sub (A.mul n n) 1) ((n : ℝ) ^ 2 - 1) := (R _).trans r3
  have hp4 : 0 < A.sub (A.mul n n) 1 := r4.pos (by linarith)
  have r5 : Rel (2 * u + 2 * u) (A.div 1 (A.add n 1)) (1 / (n + 1)) := (R _).trans (r1.const_div 1)
  have r6 : Rel (2 * u + (2 * u + (2 * u + 8 / 3 * u))) (A.div (A.mul n n) (A.sub (A.mul n n) 1)) ((n : ℝ) ^ 2 / ((n : ℝ) ^ 2 - 1)) := (R _).trans (r2.div r4)
  have r7 : Rel (2 * u + (2 * u + 2 * u)) (A.mul 2 (A.div 1 (A.add n 1))) (2 / (n + 1)) := by
    have := (R (2 * A.div 1 (A.add n 1))).trans (r5.const_mul 2)
    rwa [mul_one_div] at this
  refine ⟨{ useParallelCut := true, nF := n, helper := { nF := n, halfN := A.div n 2, nPlus1 := A.add n 1, invN := A.div 1 n, nSq := A.mul n n, cst0 := A.div 1 (A.add n 1), cst1 := A.div (A.mul n n) (A.sub (A.mul n n) 1), cst2 := A.mul 2 (A.div 1 (A.add n 1)), cst3 := A.mul n (A.div 1 (A.add n 1)) } }, ?_, rfl, rfl, rfl, r5.mono (by linarith), r7.mono (by linarith), r6.mono (by linarith)⟩
  have hi : (n : ℤ) ≥ 2 := by exact_mod_cast hn
  have hn0 : (n : ℝ) ≠ 0 := by linarith
  unfold Arith.calcInit Arith.coreInit Arith.pdiv
  rw [if_pos hi]
  push_cast
  have hn1 : n ≠ 0 := by omega
  simp [hp1.ne', hp4.ne', hn1]

namespace CutData

variable {A : Arith} {u γ : ℝ} {M : Mat n} {m L : ℝ} (D : CutData A u γ M m L)
include D

/-- The rounded update keeps, up to an inflation, what the exact one keeps; shape and centre move as in the exact update, up to small errors. -/
theorem update_contains {κ : ℝ} (hκ : 0 < κ) {x0 g : Vec n} (hω : 0 < g ⬝ᵥ (M *ᵥ g)) {ρ σ δ a c κh E k r : ℝ} (hρ : 0 ≤ ρ) (hσ0 : 0 ≤ σ) (hσ : σ < 1) (hδ : 0 < δ)
    (ha : |a - ρ / (g ⬝ᵥ (M *ᵥ g))| ≤ E * (ρ / (g ⬝ᵥ (M *ᵥ g)))) (hc : |c - σ / (g ⬝ᵥ (M *ᵥ g))| ≤ E * (σ / (g ⬝ᵥ (M *ᵥ g)))) (hE0 : 0 ≤ E) (hE : E ≤ 1)
    (hε : epsOf n γ m L ≤ 1 / 10) (hk : κ * δ ≤ k * κh) (hr : ρ ≤ r * Real.sqrt (κ * (g ⬝ᵥ (M *ᵥ g)))) {b d : ℝ}
    (hbd : epsOf n γ m L + σ * (E + (1 + E) * (8 * epsOf n γ m L)) ≤ b)
    (hdd : u * nrm x0 / Real.sqrt (κ * m) + r * (E + (1 + E) * (3 * epsOf n γ m L + 4 * epsOf n γ m L ^ 2)) ≤ d) (hb : b < 1 - σ) :
    (∀ v : Vec n, v ≠ 0 → 0 < v ⬝ᵥ ((fun i j => A.sub (M i j) (A.mul c (A.mul (A.mv M g i) (A.mv M g j))) : Mat n) *ᵥ v)) ∧
    (∀ x, x ∈ supportSet (M - (σ / (g ⬝ᵥ (M *ᵥ g))) • vecMulVec (M *ᵥ g) (M *ᵥ g)) (κ * δ) (x0 - (ρ / (g ⬝ᵥ (M *ᵥ g))) • (M *ᵥ g)) →
      x ∈ supportSet (fun i j => A.sub (M i j) (A.mul c (A.mul (A.mv M g i) (A.mv M g j)))) (κh * (k * (1 + d / Real.sqrt (δ * (1 - σ))) ^ 2 / (1 - b / (1 - σ))))
        (fun i => A.sub (x0 i) (A.mul a (A.mv M g i)))) ∧
    (∀ v : Vec n, (1 - σ - b) * (v ⬝ᵥ (M *ᵥ v)) ≤ v ⬝ᵥ ((fun i j => A.sub (M i j) (A.mul c (A.mul (A.mv M g i) (A.mv M g j))) : Mat n) *ᵥ v) ∧
      v ⬝ᵥ ((fun i j => A.sub (M i j) (A.mul c (A.mul (A.mv M g i) (A.mv M g j))) : Mat n) *ᵥ v) ≤ (1 + b) * (v ⬝ᵥ (M *ᵥ v))) ∧
    ∀ v : Vec n, |v ⬝ᵥ ((fun i => A.sub (x0 i) (A.mul a (A.mv M g i))) - x0)| ≤ Real.sqrt (v ⬝ᵥ (M *ᵥ v)) * (r + d) * Real.sqrt κ := by
  set ω := g ⬝ᵥ (M *ᵥ g) with hωd
  set ε := epsOf n γ m L with hεd
  have hε0 : 0 ≤ ε := D.eps_nonneg
  have hu := D.u_nonneg
  have hm := D.btw.pos
  have hb0 : 0 ≤ b := le_trans (by positivity) hbd
  have hr0 : 0 ≤ r := by
    by_contra h
    push Not at h
    have := mul_neg_of_neg_of_pos h (Real.sqrt_pos.mpr (mul_pos hκ hω))
    linarith
  have hd0 : 0 ≤ d := le_trans (by have := nrm_nonneg x0; positivity) hdd
  have hM' : ∀ v : Vec n, (1 - σ) * (v ⬝ᵥ (M *ᵥ v)) ≤ v ⬝ᵥ ((M - (σ / ω) • vecMulVec (M *ᵥ g) (M *ᵥ g)) *ᵥ v) := fun v => by
    rw [quad_update D.btw.herm]
    have h1 := cauchy_schwarz D.btw.posSemidef g v
    have h2 : σ / ω * (g ⬝ᵥ (M *ᵥ v)) ^ 2 ≤ σ / ω * (ω * (v ⬝ᵥ (M *ᵥ v))) := mul_le_mul_of_nonneg_left h1 (by positivity)
    have h3 : σ / ω * (ω * (v ⬝ᵥ (M *ᵥ v))) = σ * (v ⬝ᵥ (M *ᵥ v)) := by field_simp
    linarith
  have hMh : ∀ v : Vec n, v ⬝ᵥ ((M - (σ / ω) • vecMulVec (M *ᵥ g) (M *ᵥ g)) *ᵥ v) - b * (v ⬝ᵥ (M *ᵥ v)) ≤
      v ⬝ᵥ ((fun i j => A.sub (M i j) (A.mul c (A.mul (A.mv M g i) (A.mv M g j))) : Mat n) *ᵥ v) := fun v => by
    have h1 := (abs_le.mp (D.shape_err g v (by positivity : 0 ≤ σ / ω) hc hE hε)).1
    have h2 : σ / ω * ω = σ := by field_simp
    rw [← hωd, h2] at h1
    have h3 := mul_le_mul_of_nonneg_left hbd (D.quad_nonneg v)
    linarith
  have hcen : ∀ v : Vec n, |v ⬝ᵥ ((fun i => A.sub (x0 i) (A.mul a (A.mv M g i))) - (x0 - (ρ / ω) • (M *ᵥ g)))| ≤ Real.sqrt (v ⬝ᵥ (M *ᵥ v)) * d * Real.sqrt κ := fun v => by
    refine (D.centre_err x0 g v (by positivity : 0 ≤ ρ / ω) ha hE (by linarith)).trans ?_
    rw [← hωd, ← hεd, mul_assoc (Real.sqrt (v ⬝ᵥ (M *ᵥ v)))]
    refine mul_le_mul_of_nonneg_left ?_ (Real.sqrt_nonneg _)
    have hsω : 0 < Real.sqrt ω := Real.sqrt_pos.mpr hω
    have hsκ : 0 < Real.sqrt κ := Real.sqrt_pos.mpr hκ
    have hsm : 0 < Real.sqrt m := Real.sqrt_pos.mpr hm
    have h1 : ρ / ω * Real.sqrt ω ≤ r * Real.sqrt κ := by
      rw [div_mul_eq_mul_div, div_le_iff₀ hω]
      rw [Real.sqrt_mul hκ.le] at hr
      calc ρ * Real.sqrt ω ≤ r * (Real.sqrt κ * Real.sqrt ω) * Real.sqrt ω := mul_le_mul_of_nonneg_right hr hsω.le
        _ = r * Real.sqrt κ * (Real.sqrt ω * Real.sqrt ω) := by ring
        _ = _ := by rw [Real.mul_self_sqrt hω.le]
    have h2 : u * nrm x0 / Real.sqrt m = u * nrm x0 / Real.sqrt (κ * m) * Real.sqrt κ := by
      rw [Real.sqrt_mul hκ.le]; field_simp
    have h3 : 0 ≤ E + (1 + E) * (3 * ε + 4 * ε ^ 2) := by positivity
    have h4 := mul_le_mul_of_nonneg_right h1 h3
    have h5 := mul_le_mul_of_nonneg_right hdd hsκ.le
    rw [h2]
    linarith
  refine ⟨fun v hv => ?_, fun x hx => support_transfer D.quad_nonneg hκ hδ hσ hM' hMh hcen hb0 hd0 hb hk hx, fun v => ⟨?_, ?_⟩, fun v => ?_⟩
  rotate_left
  · have h1 := hM' v
    have h2 := hMh v
    linarith
  · have h1 := (abs_le.mp (D.shape_err g v (by positivity : 0 ≤ σ / ω) hc hE hε)).2
    have h2 : σ / ω * ω = σ := by field_simp
    rw [← hωd, h2] at h1
    have h3 := mul_le_mul_of_nonneg_left hbd (D.quad_nonneg v)
    rw [quad_update D.btw.herm] at h1
    have h4 : 0 ≤ σ / ω * (g ⬝ᵥ (M *ᵥ v)) ^ 2 := by positivity
    linarith
  · have h1 := hcen v
    have e1 : v ⬝ᵥ ((fun i => A.sub (x0 i) (A.mul a (A.mv M g i))) - x0) = v ⬝ᵥ ((fun i => A.sub (x0 i) (A.mul a (A.mv M g i))) - (x0 - (ρ / ω) • (M *ᵥ g))) - ρ / ω * (v ⬝ᵥ (M *ᵥ g)) := by
      rw [← smul_eq_mul (ρ / ω), ← dotProduct_smul, ← dotProduct_sub]
      congr 1; abel
    have h2 : |ρ / ω * (v ⬝ᵥ (M *ᵥ g))| ≤ Real.sqrt (v ⬝ᵥ (M *ᵥ v)) * r * Real.sqrt κ := by
      have h3 : |v ⬝ᵥ (M *ᵥ g)| ≤ Real.sqrt (v ⬝ᵥ (M *ᵥ v)) * Real.sqrt ω := by
        rw [← Real.sqrt_mul (D.quad_nonneg v)]
        exact Real.abs_le_sqrt (cauchy_schwarz D.btw.posSemidef v g)
      rw [abs_mul, abs_of_nonneg (by positivity : 0 ≤ ρ / ω)]
      have hsω : 0 < Real.sqrt ω := Real.sqrt_pos.mpr hω
      have h1 : ρ / ω * Real.sqrt ω ≤ r * Real.sqrt κ := by
        rw [div_mul_eq_mul_div, div_le_iff₀ hω]
        rw [Real.sqrt_mul hκ.le] at hr
        calc ρ * Real.sqrt ω ≤ r * (Real.sqrt κ * Real.sqrt ω) * Real.sqrt ω := mul_le_mul_of_nonneg_right hr hsω.le
          _ = r * Real.sqrt κ * (Real.sqrt ω * Real.sqrt ω) := by ring
          _ = _ := by rw [Real.mul_self_sqrt hω.le]
      calc ρ / ω * |v ⬝ᵥ (M *ᵥ g)| ≤ ρ / ω * (Real.sqrt (v ⬝ᵥ (M *ᵥ v)) * Real.sqrt ω) := mul_le_mul_of_nonneg_left h3 (by positivity)
        _ = Real.sqrt (v ⬝ᵥ (M *ᵥ v)) * (ρ / ω * Real.sqrt ω) := by ring
        _ ≤ Real.sqrt (v ⬝ᵥ (M *ᵥ v)) * (r * Real.sqrt κ) := mul_le_mul_of_nonneg_left h1 (Real.sqrt_nonneg _)
        _ = _ := by ring
    rw [e1]
    refine (abs_sub _ _).trans ?_
    linarith
  have h1 := hM' v
  have h2 := hMh v
  have h3 : 0 < v ⬝ᵥ (M *ᵥ v) := PosDef.quad_pos D.btw.posDef hv
  have h4 : 0 < (1 - σ - b) * (v ⬝ᵥ (M *ᵥ v)) := mul_pos (by linarith) h3
  linarith

/-- The computed `omega` is accurate. -/
theorem omega_rel {g : Vec n} (hω : 0 < g ⬝ᵥ (M *ᵥ g)) (hε : epsOf n γ m L ≤ 1 / 100) :
    Rel (41 / 10 * epsOf n γ m L) (A.dot g (A.mv M g)) (g ⬝ᵥ (M *ᵥ g)) := by
  have h := D.omega_err g
  have h0 := D.eps_nonneg
  set ε := epsOf n γ m L
  have := Rel.of_abs (r := ε * (2 + ε)) (by rw [abs_of_pos hω]; exact h) (by positivity) (by nlinarith)
  exact this.mono (by nlinarith)

end CutData

theorem posDef_of_symm {M : Mat n} (hs : M.IsSymm) (h : ∀ v : Vec n, v ≠ 0 → 0 < v ⬝ᵥ (M *ᵥ v)) : M.PosDef :=
  Matrix.PosDef.of_dotProduct_mulVec_pos (by unfold Matrix.IsHermitian; rw [Matrix.conjTranspose_eq_transpose_of_trivial]; exact hs) fun v hv => by simpa using h v hv

theorem supportSet_mono {M : Mat n} {κ κ' : ℝ} {c x : Vec n} (hM : ∀ v : Vec n, 0 ≤ v ⬝ᵥ (M *ᵥ v)) (h : κ ≤ κ') (hx : x ∈ supportSet M κ c) : x ∈ supportSet M κ' c :=
  fun v => (hx v).trans (mul_le_mul_of_nonneg_right h (hM v))

open EllCalcCore in
/-- The parameters of a single cut on an inflated ellipsoid and a relaxed half space: the inflation `φ` and the slack `e` (in units of `τ`) grow by the factor `(n + 1) τ / (n (τ - β))`. -/
theorem bias_slabSound_infl {n β τ φ e : ℝ} (hn : 2 ≤ n) (hτ : 0 < τ) (hβ0 : 0 ≤ β) (hβ : β < τ) (hφ : 1 ≤ φ) (he : 0 ≤ e) :
    SlabSound (β - e * τ) (φ * τ) (φ ^ 2 * τ ^ 2) { biasParams n β τ with delta := (biasParams n β τ).delta * (1 + (n + 1) * τ / (n * (τ - β)) * (φ - 1 + e)) ^ 2 / φ ^ 2 } := by
  have hs1 := bias_one_sub_sigma (n := n) (β := β) (τ := τ) hn (by linarith)
  have hds := bias_deltasigma (n := n) (β := β) (τ := τ) hn hτ (by linarith)
  have h0 : 0 < τ - β := by linarith
  have hs0 : 0 < 1 - (biasParams n β τ).sigma := by
    rw [hs1]
    have : 0 < n - 1 := by linarith
    positivity
  have hσ0 : 0 ≤ (biasParams n β τ).sigma := by simp only [biasParams]; positivity
  have hid : ∀ t, (t + (biasParams n β τ).rho) ^ 2 - (1 - (biasParams n β τ).sigma) * t ^ 2 = (n / (n + 1) * (τ - β)) ^ 2 - (1 - (biasParams n β τ).sigma) * τ ^ 2 + (biasParams n β τ).sigma * (t + β) * (t + τ) := fun t => by
    simp only [biasParams]
    have : τ + β ≠ 0 := by linarith
    field_simp
    ring
  have hlin : (1 - (biasParams n β τ).sigma) * (2 * τ) + (biasParams n β τ).sigma * (τ - β) = 2 * (n / (n + 1) * (τ - β)) := by
    simp only [biasParams]
    have : τ + β ≠ 0 := by linarith
    field_simp
    ring
  have hΦ : (n / (n + 1) * (τ - β)) * (1 + (n + 1) * τ / (n * (τ - β)) * (φ - 1 + e)) = n / (n + 1) * (τ - β) + τ * (φ - 1 + e) := by
    field_simp
  generalize hy : φ - 1 + e = y at hΦ
  generalize 1 + (n + 1) * τ / (n * (τ - β)) * y = Φ at hΦ
  generalize biasParams n β τ = p at *
  have hφ2 : φ ^ 2 ≠ 0 := by positivity
  have hmain : ∀ t, t ^ 2 ≤ φ ^ 2 * τ ^ 2 → -(φ * τ) ≤ t → t ≤ -(β - e * τ) →
      (t + p.rho) ^ 2 + (1 - p.sigma) * (φ ^ 2 * τ ^ 2 - t ^ 2) ≤ p.delta * Φ ^ 2 / φ ^ 2 * (1 - p.sigma) * (φ ^ 2 * τ ^ 2) := fun t _ h1 h2 => by
    have e1 : p.delta * Φ ^ 2 / φ ^ 2 * (1 - p.sigma) * (φ ^ 2 * τ ^ 2) = (n / (n + 1) * (τ - β) + τ * y) ^ 2 := by
      rw [← hΦ, mul_pow, ← hds]; field_simp
    have hy0 : 0 ≤ y := by rw [← hy]; linarith
    have hprod : (t + β) * (t + τ) ≤ y * τ * (τ - β + y * τ) := by
      have hyτ : 0 ≤ y * τ := by positivity
      have a1 : t + β ≤ y * τ := by
        have : e * τ ≤ y * τ := mul_le_mul_of_nonneg_right (by linarith) hτ.le
        linarith
      have a2 : -(y * τ) ≤ t + τ := by
        have : (φ - 1) * τ ≤ y * τ := mul_le_mul_of_nonneg_right (by linarith) hτ.le
        linarith
      rcases le_total 0 (t + β) with c1 | c1
      · have : t + τ ≤ τ - β + y * τ := by linarith
        exact mul_le_mul a1 this (by linarith) hyτ
      · rcases le_total 0 (t + τ) with c2 | c2
        · have : (t + β) * (t + τ) ≤ 0 := mul_nonpos_of_nonpos_of_nonneg c1 c2
          have : 0 ≤ y * τ * (τ - β + y * τ) := by positivity
          linarith
        · have b1 : -(t + τ) ≤ y * τ := by linarith
          have b2 : -(t + β) ≤ τ - β + y * τ := by linarith
          have := mul_le_mul b1 b2 (by linarith) hyτ
          linarith
    have h3 := mul_le_mul_of_nonneg_left hprod hσ0
    have h4 : (1 - p.sigma) * (φ ^ 2 * τ ^ 2 - τ ^ 2) ≤ (1 - p.sigma) * ((y ^ 2 + 2 * y) * τ ^ 2) := by
      refine mul_le_mul_of_nonneg_left ?_ hs0.le
      have : φ ^ 2 - 1 ≤ y ^ 2 + 2 * y := by
        have : φ ≤ 1 + y := by linarith
        nlinarith
      have := mul_le_mul_of_nonneg_right this (sq_nonneg τ)
      linarith
    have h5 := hid t
    have h6 : 2 * (n / (n + 1) * (τ - β)) * (τ * y) = ((1 - p.sigma) * (2 * τ) + p.sigma * (τ - β)) * (τ * y) := by rw [hlin]
    rw [e1]
    nlinarith
  refine ⟨by simp only; linarith, hmain, fun t h1 h2 h3 => ?_, fun h => by simp only at h; linarith⟩
  have h4 := hmain t h1 h2 h3
  have h5 := sq_nonneg (t + p.rho)
  simp only
  have h6 : (1 - p.sigma) * (φ ^ 2 * τ ^ 2 - t ^ 2) ≤ (1 - p.sigma) * (p.delta * Φ ^ 2 / φ ^ 2 * (φ ^ 2 * τ ^ 2)) := by linarith
  exact le_of_mul_le_mul_left h6 hs0

/-- The arithmetic at the end of the estimate. -/
theorem inflation_arith {e z : ℝ} (he0 : 0 ≤ e) (he : e ≤ 1 / 2000) (hz0 : 0 ≤ z) (hz : z ≤ 1 / 1000) :
    (1 + 42 * e) * (1 + (3 / 2 * z + 54 * e)) ^ 2 / (1 - 252 * e) ≤ 1 + 500 * e + 4 * z := by
  have h1 : 0 < 1 - 252 * e := by linarith
  rw [div_le_iff₀ h1]
  have hy : 3 / 2 * z + 54 * e ≤ 285 / 10000 := by linarith
  have hy0 : 0 ≤ 3 / 2 * z + 54 * e := by positivity
  have h2 : (1 + (3 / 2 * z + 54 * e)) ^ 2 ≤ 1 + (2 + 285 / 10000) * (3 / 2 * z + 54 * e) := by nlinarith
  have h3 : (1 + 42 * e) * (1 + (3 / 2 * z + 54 * e)) ^ 2 ≤ (1 + 42 * e) * (1 + (2 + 285 / 10000) * (3 / 2 * z + 54 * e)) := mul_le_mul_of_nonneg_left h2 (by positivity)
  refine h3.trans ?_
  have h4 : e * e ≤ e * (1 / 2000) := mul_le_mul_of_nonneg_left he he0
  have h5 : z * e ≤ z * (1 / 2000) := mul_le_mul_of_nonneg_left he hz0
  nlinarith

namespace CutData

variable {A : Arith} {u γ : ℝ} {M : Mat n} {m L : ℝ} (D : CutData A u γ M m L)
include D

set_option maxHeartbeats 2000000 in
open EllCalcCore in
/-- One single cut whose coefficients were computed with small relative errors. -/
theorem single_contains {κ β η : ℝ} (hκ : 0 < κ) {x0 g : Vec n} (hω : 0 < g ⬝ᵥ (M *ᵥ g)) (hβ0 : 0 ≤ β) (hη0 : 0 < η) (hη1 : η ≤ 1)
    (hβ : β ≤ (1 - η) * Real.sqrt (κ * (g ⬝ᵥ (M *ᵥ g)))) {a c κh : ℝ}
    (ha : Rel (31 * epsOf n γ m L) a ((biasParams n β (Real.sqrt (κ * (g ⬝ᵥ (M *ᵥ g))))).rho / (g ⬝ᵥ (M *ᵥ g))))
    (hc : Rel (31 * epsOf n γ m L) c ((biasParams n β (Real.sqrt (κ * (g ⬝ᵥ (M *ᵥ g))))).sigma / (g ⬝ᵥ (M *ᵥ g))))
    (hk : Rel (41 * (epsOf n γ m L / η)) κh (κ * (biasParams n β (Real.sqrt (κ * (g ⬝ᵥ (M *ᵥ g))))).delta))
    (hε : 2000 * epsOf n γ m L ≤ η) (hξ : 1000 * (u * nrm x0 / Real.sqrt (κ * m)) ≤ η) :
    0 < κh ∧ (∀ v : Vec n, v ≠ 0 → 0 < v ⬝ᵥ ((fun i j => A.sub (M i j) (A.mul c (A.mul (A.mv M g i) (A.mv M g j))) : Mat n) *ᵥ v)) ∧
    (∀ φ s : ℝ, 1 ≤ φ → 0 ≤ s → ∀ x, x ∈ supportSet M (κ * φ ^ 2) x0 → g ⬝ᵥ (x - x0) + β ≤ s * Real.sqrt (κ * (g ⬝ᵥ (M *ᵥ g))) →
      x ∈ supportSet (fun i j => A.sub (M i j) (A.mul c (A.mul (A.mv M g i) (A.mv M g j))))
        (κh * ((1 + 500 * (epsOf n γ m L / η) + 4 * (u * nrm x0 / Real.sqrt (κ * m) / η)) * (1 + (n + 1) / (n * η) * (φ - 1 + s)) ^ 2)) (fun i => A.sub (x0 i) (A.mul a (A.mv M g i)))) ∧
    (∀ v : Vec n, (1 - (biasParams n β (Real.sqrt (κ * (g ⬝ᵥ (M *ᵥ g))))).sigma - 42 * epsOf n γ m L) * (v ⬝ᵥ (M *ᵥ v)) ≤ v ⬝ᵥ ((fun i j => A.sub (M i j) (A.mul c (A.mul (A.mv M g i) (A.mv M g j))) : Mat n) *ᵥ v) ∧
      v ⬝ᵥ ((fun i j => A.sub (M i j) (A.mul c (A.mul (A.mv M g i) (A.mv M g j))) : Mat n) *ᵥ v) ≤ (1 + 42 * epsOf n γ m L) * (v ⬝ᵥ (M *ᵥ v))) ∧
    (∀ v : Vec n, |v ⬝ᵥ ((fun i => A.sub (x0 i) (A.mul a (A.mv M g i))) - x0)| ≤ Real.sqrt (v ⬝ᵥ (M *ᵥ v)) * (1 + (u * nrm x0 / Real.sqrt (κ * m) + 36 * epsOf n γ m L)) * Real.sqrt κ) ∧
    |κh - κ * (biasParams n β (Real.sqrt (κ * (g ⬝ᵥ (M *ᵥ g))))).delta| ≤ 42 * (epsOf n γ m L / η) * (κ * (biasParams n β (Real.sqrt (κ * (g ⬝ᵥ (M *ᵥ g))))).delta) := by
  have hn2 : (2 : ℝ) ≤ n := by exact_mod_cast D.two_le
  have hε0 : 0 ≤ epsOf n γ m L := D.eps_nonneg
  have hξ0 : 0 ≤ u * nrm x0 / Real.sqrt (κ * m) := by have := D.u_nonneg; have := nrm_nonneg x0; positivity
  obtain ⟨ξ, hξd⟩ : ∃ ξ, ξ = u * nrm x0 / Real.sqrt (κ * m) := ⟨_, rfl⟩
  obtain ⟨ω, hωd⟩ : ∃ ω, ω = g ⬝ᵥ (M *ᵥ g) := ⟨_, rfl⟩
  obtain ⟨ε, hεd⟩ : ∃ ε, ε = epsOf n γ m L := ⟨_, rfl⟩
  rw [← hξd] at hξ hξ0 ⊢
  rw [← hωd] at hβ ha hc hk hω ⊢
  rw [← hεd] at ha hc hk hε hε0 ⊢
  obtain ⟨τ, hτd⟩ : ∃ τ, τ = Real.sqrt (κ * ω) := ⟨_, rfl⟩
  rw [← hτd] at hβ ha hc hk ⊢
  have hτ : 0 < τ := by rw [hτd]; exact Real.sqrt_pos.mpr (mul_pos hκ hω)
  have hτ2 : τ ^ 2 = κ * ω := by rw [hτd]; exact Real.sq_sqrt (by positivity)
  have hβτ : β ≤ τ := by nlinarith
  have hs1 := bias_one_sub_sigma (n := n) (β := β) (τ := τ) hn2 (by linarith)
  have hds := bias_deltasigma (n := n) (β := β) (τ := τ) hn2 hτ (by linarith)
  have hβlt : β < τ := by nlinarith
  have hsound := bias_slabSound (n := n) (β := β) (τ := τ) hn2 hτ (by positivity) hβτ
  have hinfl := fun (φ s : ℝ) (hφ : 1 ≤ φ) (hs : 0 ≤ s) => bias_slabSound_infl (n := n) (β := β) (τ := τ) hn2 hτ hβ0 hβlt hφ hs
  have hρτ : (biasParams n β τ).rho ≤ 1 * τ := by
    simp only [biasParams]; rw [div_le_iff₀ (by linarith)]; nlinarith
  have hρ0 : 0 ≤ (biasParams n β τ).rho := by simp only [biasParams]; positivity
  have hσ0 : 0 ≤ (biasParams n β τ).sigma := by simp only [biasParams]; positivity
  have hσ1 : (biasParams n β τ).sigma ≤ 1 := hsound.sigma_le
  have hs6 : η / 6 ≤ 1 - (biasParams n β τ).sigma := by
    rw [hs1, le_div_iff₀ (by positivity)]
    have e1 : η * τ ≤ τ - β := by linarith
    have e2 : τ + β ≤ 2 * τ := by linarith
    have e3 : η / 6 * ((n + 1) * (τ + β)) ≤ η / 6 * ((n + 1) * (2 * τ)) := by gcongr
    have e4 : ((n : ℝ) - 1) * (η * τ) ≤ ((n : ℝ) - 1) * (τ - β) := mul_le_mul_of_nonneg_left e1 (by linarith)
    have e5 : 0 ≤ (η * τ) * ((n : ℝ) - 2) := by apply mul_nonneg <;> [positivity; linarith]
    nlinarith
  have hσ : (biasParams n β τ).sigma < 1 := by linarith
  have hsq : 2 / 3 * η ≤ Real.sqrt ((biasParams n β τ).delta * (1 - (biasParams n β τ).sigma)) := by
    refine Real.le_sqrt_of_sq_le ?_
    have h1 : (biasParams n β τ).delta * (1 - (biasParams n β τ).sigma) = (n / (n + 1) * (τ - β)) ^ 2 / τ ^ 2 := by
      rw [← hds]; field_simp
    rw [h1, le_div_iff₀ (by positivity), ← mul_pow]
    refine pow_le_pow_left₀ (by positivity) ?_ 2
    have h2 : (2 : ℝ) / 3 ≤ n / (n + 1) := by rw [div_le_div_iff₀ (by norm_num) (by linarith)]; linarith
    have h3 : η * τ ≤ τ - β := by linarith
    calc 2 / 3 * η * τ = 2 / 3 * (η * τ) := by ring
      _ ≤ n / (n + 1) * (τ - β) := mul_le_mul h2 h3 (by positivity) (by positivity)
  have hδ : 0 < (biasParams n β τ).delta := by
    by_contra h
    push Not at h
    have h1 : (biasParams n β τ).delta * (1 - (biasParams n β τ).sigma) ≤ 0 := mul_nonpos_of_nonpos_of_nonneg h (by linarith)
    rw [Real.sqrt_eq_zero_of_nonpos h1] at hsq
    linarith
  obtain ⟨p, hp⟩ : ∃ p, p = biasParams n β τ := ⟨_, rfl⟩
  rw [← hp] at hρτ hρ0 hσ0 hσ1 hs6 hσ hsq hδ hsound ha hc hk ⊢
  simp only [← hp] at hinfl
  have hε1 : ε ≤ 1 / 2000 := by linarith
  have hsmall : ∀ t : ℝ, 0 ≤ t → |t| = t := fun t ht => abs_of_nonneg ht
  have hE : ∀ {a' b' : ℝ}, 0 ≤ b' → Rel (31 * ε) a' b' → |a' - b'| ≤ 32 * ε * b' := fun {a' b'} hb' h => by
    refine (h.abs_sub_le hb' (by linarith)).trans (mul_le_mul_of_nonneg_right ?_ hb')
    nlinarith
  have he0 : 0 ≤ ε / η := by positivity
  have he1 : ε / η ≤ 1 / 2000 := by rw [div_le_iff₀ hη0]; linarith
  have hz0 : 0 ≤ ξ / η := by positivity
  have hz1 : ξ / η ≤ 1 / 1000 := by rw [div_le_iff₀ hη0]; linarith
  have hκδ : 0 < κ * p.delta := mul_pos hκ hδ
  have hκh : 0 < κh := hk.pos hκδ
  have hkk : κ * p.delta ≤ (1 + 42 * (ε / η)) * κh := by
    have h1 := (abs_le.mp (hk.symm.abs_sub_le hκh.le (by linarith))).2
    have h2 : 41 * (ε / η) + (41 * (ε / η)) ^ 2 ≤ 42 * (ε / η) := by nlinarith
    have h3 := mul_le_mul_of_nonneg_right h2 hκh.le
    linarith
  have hmain := fun (Φ : ℝ) (hΦ : 1 ≤ Φ) => D.update_contains hκ (x0 := x0) (g := g) (by rw [← hωd]; exact hω) (ρ := p.rho) (σ := p.sigma) (δ := p.delta * Φ ^ 2) (a := a) (c := c) (κh := κh) (E := 32 * ε)
    (k := (1 + 42 * (ε / η)) * Φ ^ 2) (r := 1) (b := 42 * ε) (d := ξ + 36 * ε) hρ0 hσ0 hσ (by positivity)
    (by rw [← hωd]; exact hE (by positivity) ha) (by rw [← hωd]; exact hE (by positivity) hc) (by positivity) (by linarith) (by rw [← hεd]; linarith)
    (by have := mul_le_mul_of_nonneg_right hkk (sq_nonneg Φ); linarith)
    (by rw [← hωd, ← hτd]; exact hρτ)
    (by
      rw [← hεd]
      have : p.sigma * (32 * ε + (1 + 32 * ε) * (8 * ε)) ≤ 1 * (32 * ε + (1 + 32 * ε) * (8 * ε)) := mul_le_mul_of_nonneg_right hσ1 (by positivity)
      nlinarith)
    (by rw [← hεd, ← hξd]; nlinarith [mul_nonneg hε0 (mul_nonneg hε0 hε0), mul_le_mul_of_nonneg_left hε1 hε0, mul_le_mul_of_nonneg_left hε1 (mul_nonneg hε0 hε0)])
    (by linarith)
  rw [← hωd] at hmain
  obtain ⟨hpos, -, hshape, hcentre⟩ := hmain 1 le_rfl
  refine ⟨hκh, hpos, fun φ s hφ hs x hx hcut => ?_, hshape, hcentre, ?_⟩
  swap
  · refine (hk.abs_sub_le hκδ.le (by linarith)).trans (mul_le_mul_of_nonneg_right ?_ hκδ.le)
    nlinarith
  obtain ⟨Φ, hΦd⟩ : ∃ Φ, Φ = 1 + ((n : ℝ) + 1) * τ / (n * (τ - β)) * (φ - 1 + s) := ⟨_, rfl⟩
  have hA0 : 0 ≤ ((n : ℝ) + 1) * τ / (n * (τ - β)) := by
    have : 0 < τ - β := by linarith
    positivity
  have hΦ1 : 1 ≤ Φ := by
    rw [hΦd]
    have : 0 ≤ ((n : ℝ) + 1) * τ / (n * (τ - β)) * (φ - 1 + s) := mul_nonneg hA0 (by linarith)
    linarith
  have hΦ2 : Φ ≤ 1 + (n + 1) / (n * η) * (φ - 1 + s) := by
    rw [hΦd]
    have : ((n : ℝ) + 1) * τ / (n * (τ - β)) ≤ (n + 1) / (n * η) := by
      have h1 : η * τ ≤ τ - β := by linarith
      rw [div_le_div_iff₀ (by have : 0 < τ - β := by linarith
                              positivity) (by positivity)]
      have := mul_le_mul_of_nonneg_left h1 (by positivity : 0 ≤ ((n : ℝ) + 1) * n)
      linarith
    have := mul_le_mul_of_nonneg_right this (by linarith : 0 ≤ φ - 1 + s)
    linarith
  have hx1 : x ∈ supportSet (M - (p.sigma / ω) • vecMulVec (M *ᵥ g) (M *ᵥ g)) (κ * (p.delta * Φ ^ 2)) (x0 - (p.rho / ω) • (M *ᵥ g)) := by
    have hso := hinfl φ s hφ hs
    rw [← hΦd, hτ2] at hso
    have hφ0 : 0 < φ := by linarith
    have hsl : x ∈ slab g (β - s * τ) (φ * τ) x0 := by
      refine ⟨by linarith, ?_⟩
      have h1 : (g ⬝ᵥ (x - x0)) ^ 2 ≤ (φ * τ) ^ 2 := by
        rw [mul_pow, hτ2, hωd]
        have := hx g
        linarith
      have h2 := (abs_le.mp (abs_le_of_sq_le_sq h1 (by positivity))).1
      linarith
    have := slab_update_support (M := M) D.btw.posSemidef (κ := κ * φ ^ 2) (by positivity) (g := g) (c := x0) (x := x) (by rw [← hωd]; exact hω) (p := { p with delta := p.delta * Φ ^ 2 / φ ^ 2 })
      (by rw [← hωd, show κ * φ ^ 2 * ω = φ ^ 2 * (κ * ω) by ring]; exact hso) hx hsl
    rw [← hωd, show κ * φ ^ 2 * (p.delta * Φ ^ 2 / φ ^ 2) = κ * (p.delta * Φ ^ 2) by field_simp] at this
    exact this
  have hnn : ∀ v : Vec n, 0 ≤ v ⬝ᵥ ((fun i j => A.sub (M i j) (A.mul c (A.mul (A.mv M g i) (A.mv M g j))) : Mat n) *ᵥ v) := fun v => by
    by_cases hv : v = 0
    · subst hv; simp
    · exact (hpos v hv).le
  refine supportSet_mono hnn (mul_le_mul_of_nonneg_left ?_ hκh.le) ((hmain Φ hΦ1).2.1 x hx1)
  have hfac : (1 + 42 * (ε / η)) * (1 + (ξ + 36 * ε) / Real.sqrt (p.delta * Φ ^ 2 * (1 - p.sigma))) ^ 2 / (1 - 42 * ε / (1 - p.sigma)) ≤ 1 + 500 * (ε / η) + 4 * (ξ / η) := by
    refine le_trans ?_ (inflation_arith he0 he1 hz0 hz1)
    have hb1 : 42 * ε / (1 - p.sigma) ≤ 252 * (ε / η) := by
      rw [div_le_iff₀ (by linarith)]
      calc 42 * ε = 252 * (ε / η) * (η / 6) := by field_simp; ring
        _ ≤ _ := mul_le_mul_of_nonneg_left hs6 (by positivity)
    have hb2 : 0 < 1 - 252 * (ε / η) := by linarith
    have hsq' : 2 / 3 * η ≤ Real.sqrt (p.delta * Φ ^ 2 * (1 - p.sigma)) := by
      refine hsq.trans (Real.sqrt_le_sqrt ?_)
      have h1 : 1 ≤ Φ ^ 2 := one_le_pow₀ hΦ1
      have h2 : 0 ≤ p.delta * (1 - p.sigma) := mul_nonneg hδ.le (by linarith)
      nlinarith
    have hd1 : (ξ + 36 * ε) / Real.sqrt (p.delta * Φ ^ 2 * (1 - p.sigma)) ≤ 3 / 2 * (ξ / η) + 54 * (ε / η) := by
      rw [div_le_iff₀ (lt_of_lt_of_le (by positivity) hsq')]
      calc ξ + 36 * ε = (3 / 2 * (ξ / η) + 54 * (ε / η)) * (2 / 3 * η) := by field_simp; ring
        _ ≤ _ := mul_le_mul_of_nonneg_left hsq' (by positivity)
    have hd2 : 0 ≤ (ξ + 36 * ε) / Real.sqrt (p.delta * Φ ^ 2 * (1 - p.sigma)) := by positivity
    gcongr
  calc _ = (1 + 42 * (ε / η)) * (1 + (ξ + 36 * ε) / Real.sqrt (p.delta * Φ ^ 2 * (1 - p.sigma))) ^ 2 / (1 - 42 * ε / (1 - p.sigma)) * Φ ^ 2 := by ring
    _ ≤ (1 + 500 * (ε / η) + 4 * (ξ / η)) * (1 + (n + 1) / (n * η) * (φ - 1 + s)) ^ 2 := by
      refine mul_le_mul hfac (pow_le_pow_left₀ (by linarith) hΦ2 2) (by positivity) (by positivity)

end CutData

/-! ### The strategies of `ell_calc.py` for single cuts -/

/-- What `core_facts` says about the constants. -/
structure Arith.CoreRel (c : EllCalc) (n : ℕ) (u : ℝ) : Prop where
  nF : c.nF = n
  hnF : c.helper.nF = n
  cst0 : Rel (4 * u) c.helper.cst0 (1 / (n + 1))
  cst2 : Rel (6 * u) c.helper.cst2 (2 / (n + 1))
  cst1 : Rel (9 * u) c.helper.cst1 ((n : ℝ) ^ 2 / ((n : ℝ) ^ 2 - 1))

theorem Arith.coreRel {A : Arith} {u γ : ℝ} {N : ℕ} (hA : A.Accurate u γ N) (hu : 0 ≤ u) (hu2 : u ≤ 1 / 10) (hn : 2 ≤ n) {c : EllCalc} (hc : A.calcInit (n : ℤ) = .ok c) : Arith.CoreRel c n u := by
  obtain ⟨c', h1, -, h2, h3, h4, h5, h6⟩ := Arith.core_facts (n := n) hA hu hu2 hn
  rw [hc] at h1
  cases h1
  exact ⟨h2, h3, h4, h5, h6⟩

/-- Parameters with the accuracy that `single_contains` wants. -/
structure ParamsRel (ε η : ℝ) (p q : Params) : Prop where
  rho : Rel (131 / 10 * ε) p.rho q.rho
  sigma : Rel (242 / 10 * ε) p.sigma q.sigma
  delta : Rel (385 / 10 * (ε / η)) p.delta q.delta

open EllCalcCore in
theorem Arith.biasFast_rel {A : Arith} {u γ ε η β τ τh : ℝ} {N : ℕ} (hA : A.Accurate u γ N) (hu : 0 ≤ u) (huε : u ≤ ε) (hn : 2 ≤ n) {c : EllCalc} (hc : Arith.CoreRel c n u) (hτ : 0 < τ) (hτh : Rel (51 / 10 * ε) τh τ)
    (hβ0 : 0 ≤ β) (hη0 : 0 < η) (hη1 : η ≤ 1) (hβ : β ≤ (1 - η) * τ) (hε : 2000 * ε ≤ η) :
    0 < A.add τh (A.mul (n : ℝ) β) ∧ ∃ p, A.calcBiasCutFast c.helper β τh (A.add τh (A.mul (n : ℝ) β)) = .ok p ∧ ParamsRel ε η p (biasParams n β τ) := by
  have hn2 : (2 : ℝ) ≤ n := by exact_mod_cast hn
  have hε1 : ε ≤ 1 / 2000 := by linarith
  have hε0 : 0 ≤ ε := hu.trans huε
  have R := fun x => (hA.rel hu (by linarith) x).mono (show 2 * u ≤ 2 * ε by linarith)
  have hτh0 := hτh.pos hτ
  have r1 : Rel (2 * ε + 51 / 10 * ε) (A.add τh (A.mul n β)) (τ + n * β) :=
    (R _).trans (hτh.add ((R _).mono (by linarith)) hτ (by positivity))
  have hη' := r1.pos (by positivity)
  have r2 : Rel (2 * ε + 51 / 10 * ε) (A.div β τh) (β / τ) := (R _).trans (hτh.const_div β)
  have r3 : Rel (2 * ε + 51 / 10 * ε) (A.add τh β) (τ + β) := (R _).trans (hτh.add ((Rel.refl (by positivity) _)) hτ hβ0)
  have h3 := r3.pos (by positivity)
  have c0 := hc.cst0.mono (show 4 * u ≤ 4 * ε by linarith)
  have c2 := hc.cst2.mono (show 6 * u ≤ 6 * ε by linarith)
  have c1 := hc.cst1.mono (show 9 * u ≤ 9 * ε by linarith)
  have r4 : Rel (2 * ε + (4 * ε + (2 * ε + 51 / 10 * ε))) (A.mul c.helper.cst0 (A.add τh (A.mul n β))) (1 / (n + 1) * (τ + n * β)) := (R _).trans (c0.mul r1)
  have r5 : Rel (2 * ε + (6 * ε + (2 * ε + 51 / 10 * ε))) (A.mul c.helper.cst2 (A.add τh (A.mul n β))) (2 / (n + 1) * (τ + n * β)) := (R _).trans (c2.mul r1)
  have r6 := (R _).trans (r5.div r3)
  have hα0 : 0 ≤ β / τ := by positivity
  have hα1 : β / τ ≤ 1 - η := by rw [div_le_iff₀ hτ]; exact hβ
  have he0 : 0 ≤ ε / η := by positivity
  have he1 : ε / η ≤ 1 / 2000 := by rw [div_le_iff₀ hη0]; linarith
  have hee : ε ≤ ε / η := by rw [le_div_iff₀ hη0]; nlinarith
  have r7 : Rel (2 * (72 / 10 * (ε / η))) (1 - A.div β τh) (1 - β / τ) := by
    refine Rel.of_abs ?_ (by positivity) (by linarith)
    have h1 := r2.abs_sub_le hα0 (by linarith)
    rw [abs_of_pos (by linarith : 0 < 1 - β / τ), show 1 - A.div β τh - (1 - β / τ) = -(A.div β τh - β / τ) by ring, abs_neg]
    have h2 : (2 * ε + 51 / 10 * ε + (2 * ε + 51 / 10 * ε) ^ 2) ≤ 72 / 10 * ε := by nlinarith
    calc _ ≤ _ := h1
      _ ≤ 72 / 10 * ε * 1 := mul_le_mul h2 (by linarith) hα0 (by positivity)
      _ = 72 / 10 * (ε / η) * η := by field_simp
      _ ≤ _ := mul_le_mul_of_nonneg_left (by linarith) (by positivity)
  have r8 : Rel (2 * ε + (2 * ε + 51 / 10 * ε)) (A.add 1 (A.div β τh)) (1 + β / τ) := (R _).trans ((Rel.refl (by positivity) _).add r2 one_pos hα0)
  have r9 : Rel (2 * ε + 2 * (72 / 10 * (ε / η))) (A.sub 1 (A.div β τh)) (1 - β / τ) := (R _).trans r7
  have r10 := (R _).trans (((R _).trans (c1.mul r9)).mul r8)
  refine ⟨hη', _, by unfold Arith.calcBiasCutFast Arith.pdiv; rw [if_neg hτh0.ne', if_neg h3.ne']; rfl, ?_, ?_, ?_⟩
  · have e : 1 / ((n : ℝ) + 1) * (τ + n * β) = (biasParams n β τ).rho := by simp only [biasParams]; ring
    rw [← e]; exact r4.mono (by linarith)
  · have e : 2 / ((n : ℝ) + 1) * (τ + n * β) / (τ + β) = (biasParams n β τ).sigma := by simp only [biasParams]; field_simp
    rw [← e]; exact r6.mono (by linarith)
  · have e : (n : ℝ) ^ 2 / ((n : ℝ) ^ 2 - 1) * (1 - β / τ) * (1 + β / τ) = (biasParams n β τ).delta := by simp only [biasParams]; ring
    rw [← e]; exact r10.mono (by linarith)

open EllCalcCore in
theorem Arith.central_rel {A : Arith} {u γ ε τ τh : ℝ} {N : ℕ} (hA : A.Accurate u γ N) (hu : 0 ≤ u) (huε : u ≤ ε) (hε : ε ≤ 1 / 2000) (hn : 2 ≤ n) {c : EllCalc} (hc : Arith.CoreRel c n u) (hτ : 0 < τ) (hτh : Rel (51 / 10 * ε) τh τ)
    : ParamsRel ε 1 (A.calcCentralCut c.helper τh) (biasParams n 0 τ) := by
  have hn2 : (2 : ℝ) ≤ n := by exact_mod_cast hn
  have hε0 : 0 ≤ ε := hu.trans huε
  have R := fun x => (hA.rel hu (by linarith) x).mono (show 2 * u ≤ 2 * ε by linarith)
  have c0 := hc.cst0.mono (show 4 * u ≤ 4 * ε by linarith)
  have r4 : Rel (2 * ε + (4 * ε + 51 / 10 * ε)) (A.mul c.helper.cst0 τh) (1 / (n + 1) * τ) := (R _).trans (c0.mul hτh)
  refine ⟨?_, ?_, ?_⟩
  · have e : 1 / ((n : ℝ) + 1) * τ = (biasParams n 0 τ).rho := by simp only [biasParams]; ring
    rw [← e]; exact r4.mono (by linarith)
  · have e : 2 / ((n : ℝ) + 1) = (biasParams n 0 τ).sigma := by simp only [biasParams]; field_simp; ring
    rw [← e]; exact hc.cst2.mono (by linarith)
  · have e : (n : ℝ) ^ 2 / ((n : ℝ) ^ 2 - 1) = (biasParams n 0 τ).delta := by simp only [biasParams]; ring
    rw [← e]; exact hc.cst1.mono (by linarith)

/-- The update, if the strategy returns parameters. -/
theorem Arith.updateCore_some {A : Arith} {e : Ell n} {cut : Cut n} {s : Strategy} (h0 : cut.1 ≠ 0) (h1 : A.dot cut.1 (A.mv e.mq cut.1) ≠ 0) (hd : e.noDeferTrick = false) {st : CutStatus} {p : Params}
    (hs : s cut.2 (A.mul e.kappa (A.dot cut.1 (A.mv e.mq cut.1))) = .ok (st, some p)) :
    A.updateCore e cut s = ({ e with
      xc := fun i => A.sub (e.xc i) (A.mul (A.div p.rho (A.dot cut.1 (A.mv e.mq cut.1))) (A.mv e.mq cut.1 i))
      mq := fun i j => A.sub (e.mq i j) (A.mul (A.div p.sigma (A.dot cut.1 (A.mv e.mq cut.1))) (A.mul (A.mv e.mq cut.1 i) (A.mv e.mq cut.1 j)))
      kappa := A.mul e.kappa p.delta
      tsq := A.mul e.kappa (A.dot cut.1 (A.mv e.mq cut.1)) }, .ok st) := by
  unfold Arith.updateCore
  have h0' : ¬ ∀ i, cut.1 i = 0 := fun h => h0 (funext h)
  simp only [if_neg h0', if_neg h1, hs, hd, Bool.false_eq_true, if_false]

end Ellalgo
