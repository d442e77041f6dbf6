import Verif.Spec.RoundedPower
import Verif.Model.RoundedPower
import Verif.Props.RoundedResidual
import Verif.Props.PowerConverge

/-!
# C126: a converged `power_iteration` in floating point has found an approximate eigenpair
-/

namespace Ellalgo

open Finset Matrix Spec

variable {n : ℕ} {A : Arith} {u γ : ℝ}

theorem nrm_eq_sqrt (v : Vec n) : nrm v = Real.sqrt (∑ i, v i ^ 2) := by rw [nrm, dot_self_eq]

theorem nrm_smul' (c : ℝ) (v : Vec n) : nrm (c • v) = |c| * nrm v := by
  unfold nrm
  rw [smul_dotProduct, dotProduct_smul, smul_eq_mul, smul_eq_mul, ← mul_assoc, Real.sqrt_mul (mul_self_nonneg c), Real.sqrt_mul_self_eq_abs]

theorem nrm_abs_sub (x y : Vec n) : nrm (x - y) ≤ nrm x + nrm y := by
  have := nrm_add_le x ((-1 : ℝ) • y)
  rw [nrm_smul', abs_neg, abs_one, one_mul, neg_one_smul, ← sub_eq_add_neg] at this
  exact this

/-- The computed length. -/
theorem computed_length (hA : A.Accurate u γ n) (hu : 0 ≤ u) (huγ : u ≤ γ) (hγ : γ ≤ 1 / 100) (y : Vec n) :
    (1 - γ) * ((1 - γ) * nrm y) ≤ A.rnd (Real.sqrt (A.dot y y)) ∧ A.rnd (Real.sqrt (A.dot y y)) ≤ (1 + γ) * ((1 + γ) * nrm y) := by
  have hγ0 := hu.trans huγ
  have h1 := abs_le.mp (hA.dot y y le_rfl)
  have e : ∑ i, |y i| * |y i| = nrm y ^ 2 := by
    rw [nrm_sq, dot_self_eq]
    exact sum_congr rfl fun i _ => by rw [abs_mul_abs_self, sq]
  rw [e, ← nrm_sq] at h1
  have hn := nrm_nonneg y
  have h2 : (1 - γ) * nrm y ≤ Real.sqrt (A.dot y y) := by
    refine Real.le_sqrt_of_sq_le ?_
    have : (1 - γ) ^ 2 ≤ 1 - γ := by nlinarith
    have := mul_le_mul_of_nonneg_right this (sq_nonneg (nrm y))
    nlinarith
  have h2' : Real.sqrt (A.dot y y) ≤ (1 + γ) * nrm y := by
    refine Real.sqrt_le_iff.mpr ⟨by positivity, ?_⟩
    have : 1 + γ ≤ (1 + γ) ^ 2 := by nlinarith
    have := mul_le_mul_of_nonneg_right this (sq_nonneg (nrm y))
    nlinarith
  have h3 := hA.rnd (Real.sqrt (A.dot y y))
  have h0 := Real.sqrt_nonneg (A.dot y y)
  rw [abs_of_nonneg h0] at h3
  have h4 := abs_le.mp h3
  have a2 := mul_le_mul_of_nonneg_right huγ h0
  constructor
  · have a1 := mul_le_mul_of_nonneg_left h2 (show (0 : ℝ) ≤ 1 - γ by linarith)
    linarith
  · have a1 := mul_le_mul_of_nonneg_left h2' (show (0 : ℝ) ≤ 1 + γ by linarith)
    linarith

/-- What the division by the length gives. -/
theorem unit_computed (hA : A.Accurate u γ n) (hu : 0 ≤ u) (huγ : u ≤ γ) (hγ : γ ≤ 1 / 100) {y x : Vec n} (h : A.arrUnit y = .ok x) :
    ∃ c, 0 < c ∧ c ≤ (1 + γ) * ((1 + γ) * nrm y) ∧ nrm (y - c • x) ≤ γ * nrm y ∧ |nrm x - 1| ≤ 4 * γ := by
  have hγ0 := hu.trans huγ
  obtain ⟨h1, h2⟩ := computed_length hA hu huγ hγ y
  unfold Arith.arrUnit at h
  simp only at h
  generalize A.rnd (Real.sqrt (A.dot y y)) = c at *
  split_ifs at h with hc
  cases h
  have hn := nrm_nonneg y
  have hc0 : 0 < c := lt_of_le_of_ne ((mul_nonneg (by linarith) (mul_nonneg (by linarith) hn)).trans h1) (Ne.symm hc)
  have hy : 0 < nrm y := by
    rcases hn.eq_or_lt with h0 | h0
    · rw [← h0] at h2; linarith
    · exact h0
  have hd : nrm (y - c • fun i => A.div (y i) c) ≤ γ * nrm y := by
    have := nrm_mono (x := y - c • fun i => A.div (y i) c) (y := γ • fun i => |y i|) fun i => by
      simp only [Pi.sub_apply, Pi.smul_apply, smul_eq_mul]
      have h3 := hA.rnd (y i / c)
      rw [abs_div, abs_of_pos hc0] at h3
      have e : y i - c * A.div (y i) c = -(c * (A.rnd (y i / c) - y i / c)) := by
        show y i - c * A.rnd (y i / c) = _
        field_simp
        ring
      rw [e, abs_neg, abs_mul, abs_of_pos hc0]
      have h4 := mul_le_mul_of_nonneg_left h3 hc0.le
      have h5 : c * (u * (|y i| / c)) = u * |y i| := by field_simp
      have h6 := mul_le_mul_of_nonneg_right huγ (abs_nonneg (y i))
      linarith
    refine this.trans (le_of_eq ?_)
    rw [nrm_smul', abs_of_nonneg hγ0]
    congr 1
    unfold nrm
    rw [dot_self_eq, dot_self_eq]
    simp only [sq_abs]
  refine ⟨c, hc0, h2, hd, ?_⟩
  generalize (fun i => A.div (y i) c) = x at hd ⊢
  have e1 : nrm (c • x) = c * nrm x := by rw [nrm_smul', abs_of_pos hc0]
  have h3 := nrm_abs_sub y (y - c • x)
  have h4 := nrm_add_le (c • x) (y - c • x)
  rw [sub_sub_cancel, e1] at h3
  rw [add_sub_cancel, e1] at h4
  have hx := nrm_nonneg x
  rw [abs_le]
  constructor
  · by_contra hlt
    push Not at hlt
    have b1 : c * nrm x ≤ (1 + γ) * ((1 + γ) * nrm y) * (1 - 4 * γ) := mul_le_mul h2 (by linarith) hx (by positivity)
    have b2 : (1 + γ) * (1 + γ) * (1 - 4 * γ) < 1 - γ ∨ γ = 0 := by
      rcases hγ0.eq_or_lt with h0 | h0
      · exact .inr h0.symm
      · left; nlinarith [mul_pos h0 h0, mul_pos h0 (mul_pos h0 h0)]
    rcases b2 with b2 | b2
    · have := mul_lt_mul_of_pos_right b2 hy
      linarith
    · subst b2
      have : c * nrm x < c * 1 := mul_lt_mul_of_pos_left (by linarith) hc0
      linarith
  · by_contra hlt
    push Not at hlt
    have b1 : (1 - γ) * ((1 - γ) * nrm y) * (1 + 4 * γ) ≤ c * nrm x := mul_le_mul h1 (by linarith) (by linarith) hc0.le
    have b2 : 1 + γ < (1 - γ) * (1 - γ) * (1 + 4 * γ) ∨ γ = 0 := by
      rcases hγ0.eq_or_lt with h0 | h0
      · exact .inr h0.symm
      · left; nlinarith [mul_pos h0 h0, mul_pos h0 (mul_pos h0 h0)]
    rcases b2 with b2 | b2
    · have := mul_lt_mul_of_pos_right b2 hy
      linarith
    · subst b2
      have : c * 1 < c * nrm x := mul_lt_mul_of_pos_left (by linarith) hc0
      linarith

theorem nrm_le_l1 (d : Vec n) : nrm d ≤ ∑ i, |d i| := by
  refine nrm_le_of_sq (sum_nonneg fun i _ => abs_nonneg _) ?_
  rw [dot_self_eq]
  calc ∑ i, d i ^ 2 = ∑ i, |d i| * |d i| := sum_congr rfl fun i _ => by rw [abs_mul_abs_self, sq]
    _ ≤ ∑ i, |d i| * ∑ j, |d j| := sum_le_sum fun i _ => mul_le_mul_of_nonneg_left (single_le_sum (fun j _ => abs_nonneg (d j)) (mem_univ i)) (abs_nonneg _)
    _ = _ := by rw [← sum_mul, sq]

/-- The stopping test. -/
theorem l1_computed (hA : A.Accurate u γ n) (hu : 0 ≤ u) (huγ : u ≤ γ) (hγ : γ ≤ 1 / 100) {d : Vec n} {tol : ℝ} (h : A.normL1 (fun i => A.rnd (d i)) ≤ tol) : nrm d ≤ (1 + 3 * γ) * tol := by
  have hγ0 := hu.trans huγ
  have h1 := (abs_le.mp (hA.dot (fun i => |A.rnd (d i)|) (fun _ => 1) le_rfl)).1
  simp only [abs_abs, abs_one, mul_one, dotProduct] at h1
  change A.dot (fun i => |A.rnd (d i)|) (fun _ => 1) ≤ tol at h
  have h2 : (1 - γ) * ∑ i, |d i| ≤ ∑ i, |A.rnd (d i)| := by
    rw [mul_sum]
    refine sum_le_sum fun i _ => ?_
    have a1 := hA.rnd (d i)
    have a2 := abs_sub_abs_le_abs_sub (d i) (A.rnd (d i))
    rw [abs_sub_comm] at a2
    have a3 := mul_le_mul_of_nonneg_right huγ (abs_nonneg (d i))
    linarith
  have h3 := nrm_le_l1 d
  have h4 : 0 ≤ ∑ i, |d i| := sum_nonneg fun i _ => abs_nonneg _
  have h5 := mul_le_mul_of_nonneg_left h2 (show (0 : ℝ) ≤ 1 - γ by linarith)
  have h7 : 1 ≤ (1 + 3 * γ) * ((1 - γ) * (1 - γ)) := by nlinarith [mul_nonneg hγ0 hγ0, mul_nonneg hγ0 (mul_nonneg hγ0 hγ0)]
  have h8 := mul_le_mul_of_nonneg_right h7 h4
  have h9 := mul_le_mul_of_nonneg_left (show (1 - γ) * ((1 - γ) * ∑ i, |d i|) ≤ tol by linarith) (show (0 : ℝ) ≤ 1 + 3 * γ by linarith)
  linarith

theorem Spec.AbsBound.abs_nrm {M : Mat n} {L : ℝ} (hM : AbsBound M L) (v : Vec n) : nrm (fun i => ∑ j, |M i j| * |v j|) ≤ L * nrm v := by
  rw [nrm_eq_sqrt, nrm_eq_sqrt]; exact hM.2 v

theorem Spec.AbsBound.mulVec_nrm {M : Mat n} {L : ℝ} (hM : AbsBound M L) (v : Vec n) : nrm (M *ᵥ v) ≤ L * nrm v :=
  (nrm_mono fun i => abs_row_le M i fun _ => le_rfl).trans (hM.abs_nrm v)

/-- The computed product with the matrix. -/
theorem Spec.AbsBound.mv_nrm {M : Mat n} {L : ℝ} (hM : AbsBound M L) (hA : A.Accurate u γ n) (hγ0 : 0 ≤ γ) (v : Vec n) : nrm (A.mv M v - M *ᵥ v) ≤ γ * (L * nrm v) := by
  have := nrm_mono (x := A.mv M v - M *ᵥ v) (y := γ • fun i => ∑ j, |M i j| * |v j|) fun i => hA.mv M v le_rfl i
  rw [nrm_smul', abs_of_nonneg hγ0] at this
  exact this.trans (mul_le_mul_of_nonneg_left (hM.abs_nrm v) hγ0)

/-- A vector whose image is a multiple of it up to `w`, with the computed Rayleigh quotient. -/
theorem rayleigh_near {M : Mat n} {L σ ld W : ℝ} {x : Vec n} (hL : 0 ≤ L) (hγ0 : 0 ≤ γ) (hγ : γ ≤ 1 / 100) (hx : |nrm x - 1| ≤ 4 * γ) (hw : nrm (M *ᵥ x - σ • x) ≤ W) (hσ : |σ| ≤ 11 / 10 * L)
    (hld : |ld - x ⬝ᵥ (M *ᵥ x)| ≤ 11 / 5 * γ * L) : nrm (M *ᵥ x - ld • x) ≤ W + 12 * γ * L := by
  have hx' := abs_le.mp hx
  have hx0 := nrm_nonneg x
  have hx1 : nrm x ≤ 26 / 25 := by linarith
  obtain ⟨w, hwd⟩ : ∃ w, w = M *ᵥ x - σ • x := ⟨_, rfl⟩
  rw [← hwd] at hw
  have e1 : x ⬝ᵥ (M *ᵥ x) = σ * nrm x ^ 2 + x ⬝ᵥ w := by
    rw [hwd, dotProduct_sub, dotProduct_smul, nrm_sq, smul_eq_mul]; ring
  have e2 : M *ᵥ x - ld • x = (w - (x ⬝ᵥ w) • x) + (σ * (1 - nrm x ^ 2) - (ld - x ⬝ᵥ (M *ᵥ x))) • x := by
    have : M *ᵥ x = w + σ • x := by rw [hwd]; abel
    rw [e1, this]
    ext i
    simp only [Pi.add_apply, Pi.sub_apply, Pi.smul_apply, smul_eq_mul]
    ring
  have h1 : nrm (w - (x ⬝ᵥ w) • x) ≤ nrm w := by
    refine nrm_le_of_sq (nrm_nonneg _) ?_
    have : (w - (x ⬝ᵥ w) • x) ⬝ᵥ (w - (x ⬝ᵥ w) • x) = nrm w ^ 2 - (2 - nrm x ^ 2) * (x ⬝ᵥ w) ^ 2 := by
      rw [nrm_sq, nrm_sq]
      simp only [sub_dotProduct, dotProduct_sub, smul_dotProduct, dotProduct_smul, smul_eq_mul]
      rw [dotProduct_comm w x]
      ring
    rw [this]
    have h2 : 0 ≤ 2 - nrm x ^ 2 := by nlinarith
    nlinarith [mul_nonneg h2 (sq_nonneg (x ⬝ᵥ w))]
  have h3 : |1 - nrm x ^ 2| ≤ 204 / 25 * γ := by
    have e : 1 - nrm x ^ 2 = -((nrm x - 1) * (nrm x + 1)) := by ring
    rw [e, abs_neg, abs_mul, abs_of_nonneg (show 0 ≤ nrm x + 1 by linarith)]
    have := mul_le_mul hx (show nrm x + 1 ≤ 51 / 25 by linarith) (by linarith) (by linarith)
    linarith
  have h4 : |σ * (1 - nrm x ^ 2) - (ld - x ⬝ᵥ (M *ᵥ x))| ≤ 112 / 10 * γ * L := by
    have a1 := abs_sub (σ * (1 - nrm x ^ 2)) (ld - x ⬝ᵥ (M *ᵥ x))
    rw [abs_mul] at a1
    have a2 := mul_le_mul hσ h3 (abs_nonneg _) (by positivity)
    have a3 : 0 ≤ γ * L := by positivity
    linarith
  rw [e2]
  have h5 := nrm_add_le (w - (x ⬝ᵥ w) • x) ((σ * (1 - nrm x ^ 2) - (ld - x ⬝ᵥ (M *ᵥ x))) • x)
  rw [nrm_smul'] at h5
  have h6 := mul_le_mul h4 hx1 hx0 (by positivity)
  have h7 : 0 ≤ γ * L := by positivity
  linarith

/-- The computed value. -/
theorem value_near {M : Mat n} {L : ℝ} (hM : AbsBound M L) (hA : A.Accurate u γ n) (hγ0 : 0 ≤ γ) (hγ : γ ≤ 1 / 100) {x : Vec n} (hx : |nrm x - 1| ≤ 4 * γ) :
    |A.dot x (A.mv M x) - x ⬝ᵥ (M *ᵥ x)| ≤ 11 / 5 * γ * L := by
  have hx' := abs_le.mp hx
  have hx0 := nrm_nonneg x
  have hx1 : nrm x ≤ 26 / 25 := by linarith
  have hL := hM.1
  have h1 := (hA.dot x (A.mv M x) le_rfl).trans (mul_le_mul_of_nonneg_left (sum_abs_mul_le x (A.mv M x)) hγ0)
  have h2 := hM.mv_nrm hA hγ0 x
  have h3 : nrm (A.mv M x) ≤ 101 / 100 * (L * nrm x) := by
    have a1 := nrm_add_le (A.mv M x - M *ᵥ x) (M *ᵥ x)
    rw [sub_add_cancel] at a1
    have a2 := hM.mulVec_nrm x
    have a3 := mul_le_mul_of_nonneg_right hγ (mul_nonneg hL hx0)
    linarith
  have h4 : |x ⬝ᵥ A.mv M x - x ⬝ᵥ (M *ᵥ x)| ≤ nrm x * (γ * (L * nrm x)) := by
    rw [← dotProduct_sub]
    exact (abs_dot_le _ _).trans (mul_le_mul_of_nonneg_left h2 hx0)
  have h5 := abs_sub_le (A.dot x (A.mv M x)) (x ⬝ᵥ A.mv M x) (x ⬝ᵥ (M *ᵥ x))
  have h6 : γ * (nrm x * nrm (A.mv M x)) ≤ γ * (nrm x * (101 / 100 * (L * nrm x))) := mul_le_mul_of_nonneg_left (mul_le_mul_of_nonneg_left h3 hx0) hγ0
  have h7 : γ * L * nrm x ^ 2 ≤ γ * L * (26 / 25) ^ 2 := mul_le_mul_of_nonneg_left (pow_le_pow_left₀ hx0 hx1 2) (by positivity)
  have h8 : 0 ≤ γ * L := by positivity
  nlinarith

/-- One pass that stops. -/
theorem stop_near {M : Mat n} {L tol : ℝ} (hM : AbsBound M L) (hA : A.Accurate u γ n) (hu : 0 ≤ u) (huγ : u ≤ γ) (hγ : γ ≤ 1 / 100) {x x1 : Vec n} (hx1 : |nrm x1 - 1| ≤ 4 * γ) (h : A.arrUnit (A.mv M x1) = .ok x)
    (hs : A.normL1 (fun i => A.sub (x i) (x1 i)) ≤ tol ∨ A.normL1 (fun i => A.add (x i) (x1 i)) ≤ tol) :
    nrm (M *ᵥ x - A.dot x (A.mv M x) • x) ≤ L * ((1 + 3 * γ) * tol + 15 * γ) := by
  have hγ0 := hu.trans huγ
  have hL := hM.1
  obtain ⟨c, hc0, hc, hd, hx⟩ := unit_computed hA hu huγ hγ h
  have hx1' := abs_le.mp hx1
  have hn0 := nrm_nonneg x1
  have hn1 : nrm x1 ≤ 26 / 25 := by linarith
  have hLn : L * nrm x1 ≤ L * (26 / 25) := mul_le_mul_of_nonneg_left hn1 hL
  have he := hM.mv_nrm hA hγ0 x1
  have hy : nrm (A.mv M x1) ≤ 106 / 100 * L := by
    have a1 := nrm_add_le (A.mv M x1 - M *ᵥ x1) (M *ᵥ x1)
    rw [sub_add_cancel] at a1
    have a2 := hM.mulVec_nrm x1
    have a3 := mul_le_mul_of_nonneg_right hγ (mul_nonneg hL hn0)
    linarith
  have hcL : c ≤ 11 / 10 * L := by
    have a1 : (1 + γ) * ((1 + γ) * nrm (A.mv M x1)) ≤ (101 / 100) * ((101 / 100) * (106 / 100 * L)) :=
      mul_le_mul (by linarith) (mul_le_mul (by linarith) hy (nrm_nonneg _) (by norm_num)) (mul_nonneg (by linarith) (nrm_nonneg _)) (by norm_num)
    linarith
  have key : ∀ s : ℝ, |s| = 1 → nrm (x - s • x1) ≤ (1 + 3 * γ) * tol → nrm (M *ᵥ x - (s * c) • x) ≤ L * ((1 + 3 * γ) * tol) + 3 * γ * L := fun s hs1 hdn => by
    have e : M *ᵥ x - (s * c) • x = M *ᵥ (x - s • x1) + (s • (A.mv M x1 - c • x) - s • (A.mv M x1 - M *ᵥ x1)) := by
      rw [mulVec_sub, mulVec_smul]
      ext i
      simp only [Pi.add_apply, Pi.sub_apply, Pi.smul_apply, smul_eq_mul]
      ring
    rw [e]
    have a1 := nrm_add_le (M *ᵥ (x - s • x1)) (s • (A.mv M x1 - c • x) - s • (A.mv M x1 - M *ᵥ x1))
    have a2 := nrm_abs_sub (s • (A.mv M x1 - c • x)) (s • (A.mv M x1 - M *ᵥ x1))
    rw [nrm_smul', nrm_smul', hs1, one_mul, one_mul] at a2
    have a3 := (hM.mulVec_nrm (x - s • x1)).trans (mul_le_mul_of_nonneg_left hdn hL)
    have a4 := mul_le_mul_of_nonneg_left hy hγ0
    have a5 := mul_le_mul_of_nonneg_left hLn hγ0
    have a6 : 0 ≤ γ * L := by positivity
    linarith
  have hv := value_near hM hA hγ0 hγ hx
  rcases hs with hs | hs
  · have h1 := l1_computed hA hu huγ hγ (d := fun i => x i - x1 i) hs
    have h2 := key 1 abs_one (by rw [one_smul]; exact h1)
    have h3 := rayleigh_near (M := M) hL hγ0 hγ hx h2 (by rw [one_mul, abs_of_pos hc0]; exact hcL) hv
    linarith
  · have h1 := l1_computed hA hu huγ hγ (d := fun i => x i + x1 i) hs
    have h2 := key (-1) (by norm_num) (by rw [neg_one_smul, sub_neg_eq_add]; exact h1)
    have h3 := rayleigh_near (M := M) hL hγ0 hγ hx h2 (by rw [abs_mul, abs_neg, abs_one, one_mul, abs_of_pos hc0]; exact hcL) hv
    linarith

theorem powerLoop_near {M : Mat n} {L : ℝ} (hM : AbsBound M L) (hA : A.Accurate u γ n) (hu : 0 ≤ u) (huγ : u ≤ γ) (hγ : γ ≤ 1 / 100) (o : PowerOptions) (arg : Vec n) {r : PowerResult n} :
    ∀ (left niter : ℕ) (x1 : Vec n), niter + left = o.maxIters → |nrm x1 - 1| ≤ 4 * γ → A.powerLoop M o arg left niter x1 = .ok r →
      |nrm r.x - 1| ≤ 4 * γ ∧ |r.ld - r.x ⬝ᵥ (M *ᵥ r.x)| ≤ 11 / 5 * γ * L ∧ r.niter ≤ o.maxIters ∧ (r.niter < o.maxIters → nrm (M *ᵥ r.x - r.ld • r.x) ≤ L * ((1 + 3 * γ) * o.tolerance + 15 * γ))
  | 0, niter, x1, _, hx1, h => by
    cases h
    exact ⟨hx1, value_near hM hA (hu.trans huγ) hγ hx1, le_rfl, fun h => absurd h (lt_irrefl _)⟩
  | left + 1, niter, x1, hN, hx1, h => by
    rw [Arith.powerLoop] at h
    rcases hy : A.arrUnit (A.mv M x1) with f | x
    · rw [hy] at h; cases h
    simp only [hy] at h
    obtain ⟨c, -, -, -, hx⟩ := unit_computed hA hu huγ hγ hy
    split_ifs at h with hs
    · cases h
      exact ⟨hx, value_near hM hA (hu.trans huγ) hγ hx, by show niter ≤ _; omega, fun _ => stop_near hM hA hu huγ hγ hx1 hy hs⟩
    · exact powerLoop_near hM hA hu huγ hγ o arg left (niter + 1) x (by omega) hx h

/-- **C126.** What `power_iteration` returns in floating point, for every square matrix with `‖ |A| ‖ ≤ L`: a vector of length one up to `4 γ` and its Rayleigh quotient up to `11/5 γ L`. If it reports fewer than `max_iters` passes it is an eigenpair
up to `L ((1 + 3 γ) tol + 15 γ)`. -/
theorem C126_residual {M : Mat n} {L : ℝ} (hM : AbsBound M L) (hA : A.Accurate u γ n) (hu : 0 ≤ u) (huγ : u ≤ γ) (hγ : γ ≤ 1 / 100) {x : Vec n} {o : PowerOptions} {r : PowerResult n} (h : A.powerIteration M x o = .ok r) :
    |Real.sqrt (∑ i, r.x i ^ 2) - 1| ≤ 4 * γ ∧ |r.ld - r.x ⬝ᵥ (M *ᵥ r.x)| ≤ 11 / 5 * γ * L ∧ r.niter ≤ o.maxIters ∧
    (r.niter < o.maxIters → NearEigenpair M r.x r.ld (4 * γ) (L * ((1 + 3 * γ) * o.tolerance + 15 * γ))) := by
  unfold Arith.powerIteration at h
  rcases hy : A.arrUnit x with f | y
  · rw [hy] at h; cases h
  simp only [hy] at h
  obtain ⟨c, -, -, -, hx⟩ := unit_computed hA hu huγ hγ hy
  obtain ⟨h1, h2, h3, h4⟩ := powerLoop_near hM hA hu huγ hγ o y o.maxIters 0 y (by omega) hx h
  rw [nrm_eq_sqrt] at h1
  refine ⟨h1, h2, h3, fun hn => ⟨h1, ?_⟩⟩
  have := h4 hn
  rw [nrm_eq_sqrt] at this
  exact this

/-- **C126.** Hence, for a symmetric matrix, the value returned is close to an eigenvalue. -/
theorem C126_eigenvalue {M : Mat n} {L : ℝ} (hS : M.IsSymm) (hM : AbsBound M L) (hA : A.Accurate u γ n) (hu : 0 ≤ u) (huγ : u ≤ γ) (hγ : γ ≤ 1 / 100) {x : Vec n} {o : PowerOptions} {r : PowerResult n}
    (h : A.powerIteration M x o = .ok r) (hn : r.niter < o.maxIters) : ∃ μ : ℝ, ∃ v : Vec n, v ≠ 0 ∧ M *ᵥ v = μ • v ∧ |μ - r.ld| ≤ 25 / 24 * (L * ((1 + 3 * γ) * o.tolerance + 15 * γ)) := by
  have hγ0 := hu.trans huγ
  obtain ⟨h1, -, -, h2⟩ := C126_residual hM hA hu huγ hγ h
  obtain ⟨-, h3⟩ := h2 hn
  rw [← nrm_eq_sqrt] at h1
  have h4 : nrm (M *ᵥ r.x - r.ld • r.x) ≤ L * ((1 + 3 * γ) * o.tolerance + 15 * γ) := by rw [nrm_eq_sqrt]; exact h3
  have h5 := (abs_le.mp h1).1
  have h6 : (0 : ℝ) < nrm r.x := by linarith
  have h7 := (nrm_nonneg _).trans h4
  refine nearby_eigenvalue hS (by positivity) (x := r.x) (fun h0 => ?_) ?_
  · rw [h0] at h6; simp [nrm] at h6
  · rw [← nrm_sq, ← nrm_sq, ← mul_pow]
    refine pow_le_pow_left₀ (nrm_nonneg _) (h4.trans ?_) 2
    have : 1 ≤ 25 / 24 * nrm r.x := by linarith
    have := mul_le_mul_of_nonneg_left this h7
    linarith

/-- **C126** for machine numbers with `p` bits, `2^p ≥ 200 (n+1)`. -/
theorem C126_bits {p : ℕ} (hp : 200 * ((n : ℝ) + 1) ≤ 2 ^ p) {M : Mat n} {L : ℝ} (hM : AbsBound M L) {x : Vec n} {o : PowerOptions} {r : PowerResult n} (h : (Arith.ieee p).powerIteration M x o = .ok r) :
    |Real.sqrt (∑ i, r.x i ^ 2) - 1| ≤ 8 * (n + 1) / 2 ^ p ∧ |r.ld - r.x ⬝ᵥ (M *ᵥ r.x)| ≤ 22 / 5 * (n + 1) / 2 ^ p * L ∧ r.niter ≤ o.maxIters ∧
    (r.niter < o.maxIters → NearEigenpair M r.x r.ld (8 * (n + 1) / 2 ^ p) (L * ((1 + 6 * (n + 1) / 2 ^ p) * o.tolerance + 30 * (n + 1) / 2 ^ p)) ∧
      (M.IsSymm → ∃ μ : ℝ, ∃ v : Vec n, v ≠ 0 ∧ M *ᵥ v = μ • v ∧ |μ - r.ld| ≤ 25 / 24 * (L * ((1 + 6 * (n + 1) / 2 ^ p) * o.tolerance + 30 * (n + 1) / 2 ^ p)))) := by
  have hup : (2⁻¹ : ℝ) ^ p * 2 ^ p = 1 := by rw [← mul_pow]; norm_num
  have hu0 : (0 : ℝ) < 2⁻¹ ^ p := by positivity
  have hinv : (2 ^ p : ℝ)⁻¹ = 2⁻¹ ^ p := by rw [inv_pow]
  have hn0 : (0 : ℝ) ≤ n := Nat.cast_nonneg n
  obtain ⟨γ, hγ⟩ : ∃ γ : ℝ, γ = 2 * ((n : ℝ) + 1) * 2⁻¹ ^ p := ⟨_, rfl⟩
  have hsm : 200 * (((n : ℝ) + 1) * 2⁻¹ ^ p) ≤ 1 := by
    have := mul_le_mul_of_nonneg_right hp hu0.le
    rw [mul_comm ((2 : ℝ) ^ p), hup] at this
    linarith
  have hle : ((1 : ℝ) + 2⁻¹ ^ p) ^ (n + 1) - 1 ≤ γ := by
    have := Arith.ieee_gamma_le (p := p) (n := n) (by linarith)
    rwa [← hγ] at this
  have hacc : (Arith.ieee p).Accurate (2⁻¹ ^ p) γ n := (Arith.ieee_accurate p n).mono le_rfl hle
  have huγ : (2⁻¹ : ℝ) ^ p ≤ γ := (Arith.ieee_le_gamma p n).trans hle
  have hγ1 : γ ≤ 1 / 100 := by rw [hγ]; linarith
  obtain ⟨h1, h2, h3, h4⟩ := C126_residual hM hacc hu0.le huγ hγ1 h
  have e1 : 8 * ((n : ℝ) + 1) / 2 ^ p = 4 * γ := by rw [div_eq_mul_inv, hinv, hγ]; ring
  have e2 : 22 / 5 * ((n : ℝ) + 1) / 2 ^ p = 11 / 5 * γ := by rw [div_eq_mul_inv, hinv, hγ]; ring
  have e3 : 6 * ((n : ℝ) + 1) / 2 ^ p = 3 * γ := by rw [div_eq_mul_inv, hinv, hγ]; ring
  have e4 : 30 * ((n : ℝ) + 1) / 2 ^ p = 15 * γ := by rw [div_eq_mul_inv, hinv, hγ]; ring
  rw [e1, e2, e3, e4]
  exact ⟨h1, h2, h3, fun hn => ⟨h4 hn, fun hS => C126_eigenvalue hS hM hacc hu0.le huγ hγ1 h hn⟩⟩

/-- The matrix `[[2]]` and the start vector `[3]` in double precision: the hypotheses of `C126_bits` and `C126_residual` hold, and the run converges in pass 0. -/
example : AbsBound !![(2 : ℝ)] 2 ∧ (Arith.ieee 53).powerIteration !![2] ![3] ⟨2000, 1 / 10 ^ 9⟩ = .ok ⟨fun _ => 1, 2, 0, fun _ => 1⟩ ∧ NearEigenpair !![(2 : ℝ)] (fun _ => 1) 2 (16 / 2 ^ 53) (2 * ((1 + 12 / 2 ^ 53) * (1 / 10 ^ 9) + 60 / 2 ^ 53)) := by
  have hM : AbsBound !![(2 : ℝ)] 2 := ⟨by norm_num, fun v => by
    simp only [Fin.sum_univ_one]
    rw [show (|(!![(2 : ℝ)] : Mat 1) 0 0| * |v 0|) ^ 2 = 2 ^ 2 * v 0 ^ 2 by rw [mul_pow, sq_abs, sq_abs]; rfl, Real.sqrt_mul (by norm_num), Real.sqrt_sq (by norm_num)]⟩
  have hd : ∀ x y : Vec 1, (Arith.ieee 53).dot x y = roundBits 53 (0 + roundBits 53 (x 0 * y 0)) := fun x y => by simp [Arith.ieee, seqDot, Fin.foldl_succ, Fin.foldl_zero]
  have hm : (Arith.ieee 53).mv !![(2 : ℝ)] (fun _ => 1) = fun _ => 2 := by
    funext i
    fin_cases i
    have := rbN 2 (by norm_num)
    push_cast at this
    simp [Arith.ieee, seqDot, Fin.foldl_succ, Fin.foldl_zero, this]
  have r1 : roundBits 53 1 = 1 := by simpa using rbN 1 (by norm_num)
  have hun : ∀ k : ℕ, 0 < k → k * k < 2 ^ 53 → ∀ y : Vec 1, y 0 = k → (Arith.ieee 53).arrUnit y = .ok fun _ => 1 := fun k hk hk2 y hy => by
    have hkk : (k : ℝ) * k < 2 ^ 53 := by exact_mod_cast hk2
    have hk0 : (0 : ℝ) < k := by exact_mod_cast hk
    have hk1 : (1 : ℝ) ≤ k := by exact_mod_cast hk
    have e1 : roundBits 53 ((k : ℝ) * k) = k * k := by
      have := rbN (k * k) (by push_cast; rw [abs_of_nonneg (by positivity)]; exact hkk)
      push_cast at this; exact this
    have e2 : roundBits 53 (k : ℝ) = k := by
      have := rbN k (by push_cast; rw [abs_of_pos hk0]; nlinarith)
      push_cast at this; exact this
    have ec : (Arith.ieee 53).rnd (Real.sqrt ((Arith.ieee 53).dot y y)) = k := by rw [hd, hy, e1, zero_add, e1, Real.sqrt_mul_self hk0.le, ieee_rnd, e2]
    unfold Arith.arrUnit
    simp only [ec]
    rw [if_neg hk0.ne']
    congr 1
    funext i
    fin_cases i
    show roundBits 53 (y 0 / k) = 1
    rw [hy, div_self hk0.ne', r1]
  have hrun : (Arith.ieee 53).powerIteration !![2] ![3] ⟨2000, 1 / 10 ^ 9⟩ = .ok ⟨fun _ => 1, 2, 0, fun _ => 1⟩ := by
    unfold Arith.powerIteration
    rw [hun 3 (by norm_num) (by norm_num) _ (by simp)]
    change (Arith.ieee 53).powerLoop !![2] ⟨2000, 1 / 10 ^ 9⟩ (fun _ => 1) (1999 + 1) 0 (fun _ => 1) = _
    rw [Arith.powerLoop, hm]
    rw [hun 2 (by norm_num) (by norm_num) _ (by norm_num)]
    have hz : (Arith.ieee 53).normL1 (fun _ : Fin 1 => (Arith.ieee 53).sub 1 1) = 0 := by
      unfold Arith.normL1
      rw [hd]
      simp [Arith.sub, ieee_rnd]
    have h2 : roundBits 53 2 = 2 := by simpa using rbN 2 (by norm_num)
    have hl : (Arith.ieee 53).dot (fun _ : Fin 1 => (1 : ℝ)) (fun _ => 2) = 2 := by rw [hd, one_mul, h2, zero_add, h2]
    simp only [hz]
    rw [if_pos (.inl (by norm_num)), hm, hl]
  refine ⟨hM, hrun, ?_⟩
  have := ((C126_bits (p := 53) (by norm_num) hM hrun).2.2.2 (by norm_num)).1
  norm_num at this ⊢
  exact this

end Ellalgo
