import Verif.Props.RoundedPower3
import Verif.Props.RoundedPower4

/-!
# C132: with a matrix that is not too near a singular one, the power iterations in floating point never divide by zero
-/

namespace Ellalgo

open Finset Matrix Spec

variable {n : ℕ} {A : Arith} {u γ : ℝ}

/-- A vector that is not zero can be divided by its computed length. -/
theorem unit_succeeds (hA : A.Accurate u γ n) (hu : 0 ≤ u) (huγ : u ≤ γ) (hγ : γ ≤ 1 / 100) {y : Vec n} (hy : 0 < nrm y) : ∃ x, A.arrUnit y = .ok x ∧ 0 < nrm x := by
  have h := (computed_length hA hu huγ hγ y).1
  have hp : 0 < (1 - γ) * ((1 - γ) * nrm y) := mul_pos (by linarith) (mul_pos (by linarith) hy)
  have he : A.arrUnit y = .ok fun i => A.div (y i) (A.rnd (Real.sqrt (A.dot y y))) := by
    unfold Arith.arrUnit
    simp only
    rw [if_neg (by linarith)]
  obtain ⟨c, -, -, -, hx⟩ := unit_computed hA hu huγ hγ he
  exact ⟨_, he, by have := (abs_le.mp hx).1; linarith⟩

/-- The same with the sum of absolute values. -/
theorem l1_unit_succeeds (hA : A.Accurate u γ n) (hu : 0 ≤ u) (huγ : u ≤ γ) (hγ : γ ≤ 1 / 100) {y : Vec n} (hy : 0 < nrm y) : ∃ x, A.arrDiv y (A.normL1 y) = .ok x ∧ 0 < nrm x := by
  have hγ0 := hu.trans huγ
  have h1 := hA.dot (fun i => |y i|) (fun _ => 1) le_rfl
  have e1 : (fun i => |y i|) ⬝ᵥ (fun _ : Fin n => (1 : ℝ)) = ∑ i, |y i| := by simp [dotProduct]
  have e2 : ∑ i, |(fun i => |y i|) i| * |(fun _ : Fin n => (1 : ℝ)) i| = ∑ i, |y i| := by simp
  rw [e1, e2] at h1
  have hs : 0 < ∑ i, |y i| := by
    have h0 : 0 ≤ ∑ i, |y i| := Finset.sum_nonneg fun i _ => abs_nonneg _
    rcases h0.eq_or_lt with e | e
    · have hz : y = 0 := by
        funext i
        exact abs_eq_zero.mp ((Finset.sum_eq_zero_iff_of_nonneg fun i _ => abs_nonneg (y i)).mp e.symm i (mem_univ i))
      rw [hz] at hy
      simp [nrm] at hy
    · exact e
  have hc : 0 < A.normL1 y := by
    have a1 := (abs_le.mp h1).1
    have a2 := mul_le_mul_of_nonneg_right hγ hs.le
    unfold Arith.normL1
    linarith
  have he : A.arrDiv y (A.normL1 y) = .ok fun i => A.div (y i) (A.normL1 y) := by
    unfold Arith.arrDiv
    rw [if_neg hc.ne']
  obtain ⟨c, -, -, -, hx⟩ := l1_unit_computed hA hu huγ hγ he
  refine ⟨_, he, lt_of_le_of_ne (nrm_nonneg _) fun h0 => ?_⟩
  rw [← h0, mul_zero] at hx
  norm_num at hx

theorem quotient_succeeds (hA : A.Accurate u γ n) (hγ0 : 0 ≤ γ) (hγ : γ ≤ 1 / 100) {y : Vec n} (hy : 0 < nrm y) (a : ℝ) : ∃ ld, A.pdiv a (A.dot y y) = .ok ld := by
  have hD := (hA.dot y y le_rfl).trans (mul_le_mul_of_nonneg_left (sum_abs_mul_le y y) hγ0)
  rw [← nrm_sq, ← sq] at hD
  have a1 := (abs_le.mp hD).1
  have hs : 0 < nrm y ^ 2 := by positivity
  have a2 := mul_le_mul_of_nonneg_right hγ hs.le
  unfold Arith.pdiv
  rw [if_neg (by linarith)]
  exact ⟨_, rfl⟩

/-- The computed image of a vector is not zero. -/
theorem image_positive {M : Mat n} {L m : ℝ} (hM : AbsBound M L) (hA : A.Accurate u γ n) (hγ0 : 0 ≤ γ) (hm : ∀ v : Vec n, m * nrm v ≤ nrm (M *ᵥ v)) (hmL : γ * L < m) {v : Vec n} (hv : 0 < nrm v) : 0 < nrm (A.mv M v) := by
  have h1 := hM.mv_nrm hA hγ0 v
  have h2 := hm v
  have h3 := nrm_abs_sub (A.mv M v) (A.mv M v - M *ᵥ v)
  rw [sub_sub_cancel] at h3
  have h4 := mul_lt_mul_of_pos_right hmL hv
  linarith

section
variable {M : Mat n} {L m : ℝ} (hM : AbsBound M L) (hA : A.Accurate u γ n) (hu : 0 ≤ u) (huγ : u ≤ γ) (hγ : γ ≤ 1 / 100) (hm : ∀ v : Vec n, m * nrm v ≤ nrm (M *ᵥ v)) (hmL : γ * L < m) (o : PowerOptions)
include hM hA hu huγ hγ hm hmL

theorem powerLoop_succeeds (arg : Vec n) : ∀ (left niter : ℕ) (x : Vec n), 0 < nrm x → ∃ r, A.powerLoop M o arg left niter x = .ok r
  | 0, _, _, _ => ⟨_, rfl⟩
  | left + 1, niter, x1, hx => by
    obtain ⟨x, e, hx'⟩ := unit_succeeds hA hu huγ hγ (image_positive hM hA (hu.trans huγ) hm hmL hx)
    rw [Arith.powerLoop, e]
    simp only
    split_ifs
    · exact ⟨_, rfl⟩
    · exact powerLoop_succeeds arg left (niter + 1) x hx'

theorem powerLoop2_succeeds : ∀ (left niter : ℕ) (x : Vec n) (ld : ℝ), 0 < nrm x → ∃ r, A.powerLoop2 M o left niter x (A.mv M x) ld = .ok r
  | 0, _, _, _, _ => ⟨_, rfl⟩
  | left + 1, niter, x1, ld, hx => by
    obtain ⟨x, e, hx'⟩ := unit_succeeds hA hu huγ hγ (image_positive hM hA (hu.trans huγ) hm hmL hx)
    rw [Arith.powerLoop2, e]
    simp only
    split_ifs
    · exact ⟨_, rfl⟩
    · exact powerLoop2_succeeds left (niter + 1) x _ hx'

theorem powerLoop3_succeeds : ∀ (left niter : ℕ) (x : Vec n) (ld : ℝ), 0 < nrm x → ∃ r, A.powerLoop3 M o left niter x (A.mv M x) ld = .ok r
  | 0, _, x, _, hx => by
    obtain ⟨y, e, -⟩ := unit_succeeds hA hu huγ hγ hx
    rw [Arith.powerLoop3, e]
    exact ⟨_, rfl⟩
  | left + 1, niter, x1, ld, hx => by
    have hy := image_positive hM hA (hu.trans huγ) hm hmL hx
    obtain ⟨x, e, hx'⟩ := unit_succeeds hA hu huγ hγ hy
    obtain ⟨q, eq⟩ := quotient_succeeds hA (hu.trans huγ) hγ hy (A.dot (A.mv M x1) (A.mv M (A.mv M x1)))
    rw [Arith.powerLoop3]
    simp only [e, eq]
    split_ifs
    · exact ⟨_, rfl⟩
    · exact powerLoop3_succeeds left (niter + 1) x _ hx'
    · exact ⟨_, rfl⟩
    · exact powerLoop3_succeeds left (niter + 1) _ _ hy

theorem powerLoop4_succeeds (arg : Vec n) : ∀ (left niter : ℕ) (x : Vec n), 0 < nrm x → ∃ r, A.powerLoop4 M o arg left niter x = .ok r
  | 0, _, x, hx => by
    obtain ⟨y, e, -⟩ := unit_succeeds hA hu huγ hγ hx
    rw [Arith.powerLoop4, e]
    exact ⟨_, rfl⟩
  | left + 1, niter, x1, hx => by
    obtain ⟨x, e, hx'⟩ := l1_unit_succeeds hA hu huγ hγ (image_positive hM hA (hu.trans huγ) hm hmL hx)
    obtain ⟨y, e', -⟩ := unit_succeeds hA hu huγ hγ hx'
    rw [Arith.powerLoop4, e]
    simp only [e']
    split_ifs
    · exact ⟨_, rfl⟩
    · exact powerLoop4_succeeds arg left (niter + 1) x hx'

end

/-- **C132.** If `‖A v‖ ≥ m ‖v‖` for all `v`, `‖ |A| ‖ ≤ L` and `m > γ L`, then for every start vector that is not zero and all options each of the four power iterations returns: none divides by zero, in whatever pass. -/
theorem C132_returns {M : Mat n} {L m : ℝ} (hM : AbsBound M L) (hA : A.Accurate u γ n) (hu : 0 ≤ u) (huγ : u ≤ γ) (hγ : γ ≤ 1 / 100) (hm : ∀ v : Vec n, m * Real.sqrt (∑ i, v i ^ 2) ≤ Real.sqrt (∑ i, (M *ᵥ v) i ^ 2)) (hmL : γ * L < m)
    {x : Vec n} (hx : x ≠ 0) (o : PowerOptions) :
    (∃ r, A.powerIteration M x o = .ok r) ∧ (∃ r, A.powerIteration2 M x o = .ok r) ∧ (∃ r, A.powerIteration3 M x o = .ok r) ∧ ∃ r, A.powerIteration4 M x o = .ok r := by
  have hx0 := nrm_pos hx
  have hm' : ∀ v : Vec n, m * nrm v ≤ nrm (M *ᵥ v) := fun v => by rw [nrm_eq_sqrt, nrm_eq_sqrt]; exact hm v
  obtain ⟨y, e, hy⟩ := unit_succeeds hA hu huγ hγ hx0
  obtain ⟨z, ez, hz⟩ := l1_unit_succeeds hA hu huγ hγ hx0
  obtain ⟨q, eq⟩ := quotient_succeeds hA (hu.trans huγ) hγ hx0 (A.dot x (A.mv M x))
  refine ⟨?_, ?_, ?_, ?_⟩
  · rw [Arith.powerIteration, e]
    exact powerLoop_succeeds hM hA hu huγ hγ hm' hmL o y _ _ y hy
  · rw [Arith.powerIteration2, e]
    exact powerLoop2_succeeds hM hA hu huγ hγ hm' hmL o _ _ y _ hy
  · unfold Arith.powerIteration3
    simp only [eq]
    exact powerLoop3_succeeds hM hA hu huγ hγ hm' hmL o _ _ x _ hx0
  · rw [Arith.powerIteration4, ez]
    exact powerLoop4_succeeds hM hA hu huγ hγ hm' hmL o z _ _ z hz

/-- **C132** for machine numbers with `p` bits, `2^p ≥ 200 (n+1)`. -/
theorem C132_bits {p : ℕ} (hp : 200 * ((n : ℝ) + 1) ≤ 2 ^ p) {M : Mat n} {L m : ℝ} (hM : AbsBound M L) (hm : ∀ v : Vec n, m * Real.sqrt (∑ i, v i ^ 2) ≤ Real.sqrt (∑ i, (M *ᵥ v) i ^ 2)) (hmL : 2 * (n + 1) / 2 ^ p * L < m)
    {x : Vec n} (hx : x ≠ 0) (o : PowerOptions) :
    (∃ r, (Arith.ieee p).powerIteration M x o = .ok r) ∧ (∃ r, (Arith.ieee p).powerIteration2 M x o = .ok r) ∧ (∃ r, (Arith.ieee p).powerIteration3 M x o = .ok r) ∧ ∃ r, (Arith.ieee p).powerIteration4 M x o = .ok r := by
  have hup : (2⁻¹ : ℝ) ^ p * 2 ^ p = 1 := by rw [← mul_pow]; norm_num
  have hu0 : (0 : ℝ) < 2⁻¹ ^ p := by positivity
  have hinv : (2 ^ p : ℝ)⁻¹ = 2⁻¹ ^ p := by rw [inv_pow]
  have hn0 : (0 : ℝ) ≤ n := Nat.cast_nonneg n
  obtain ⟨γ, hγ⟩ : ∃ γ : ℝ, γ = 2 * ((n : ℝ) + 1) * 2⁻¹ ^ p := ⟨_, rfl⟩
  have hsm : 200 * (((n : ℝ) + 1) * 2⁻¹ ^ p) ≤ 1 := by
    have := mul_le_mul_of_nonneg_right hp hu0.le
    rw [mul_comm ((2 : ℝ) ^ p), hup] at this
    linarith
  have hle : ((1 : ℝ) + 2⁻¹ ^ p) ^ (n + 1) - 1 ≤ γ := by
    have := Arith.ieee_gamma_le (p := p) (n := n) (by linarith)
    rwa [← hγ] at this
  have hacc : (Arith.ieee p).Accurate (2⁻¹ ^ p) γ n := (Arith.ieee_accurate p n).mono le_rfl hle
  have huγ : (2⁻¹ : ℝ) ^ p ≤ γ := (Arith.ieee_le_gamma p n).trans hle
  have hγ1 : γ ≤ 1 / 100 := by rw [hγ]; linarith
  have e1 : 2 * ((n : ℝ) + 1) / 2 ^ p = γ := by rw [div_eq_mul_inv, hinv, hγ]
  rw [e1] at hmL
  exact C132_returns hM hacc hu0.le huγ hγ1 hm hmL hx o

/-- The matrix `[[2]]` in double precision meets the hypotheses of `C132_bits` and `C132_returns` with `L = m = 2`. -/
example (o : PowerOptions) : (∃ r, (Arith.ieee 53).powerIteration !![(2 : ℝ)] ![3] o = .ok r) ∧ (∃ r, (Arith.ieee 53).powerIteration2 !![(2 : ℝ)] ![3] o = .ok r) ∧ (∃ r, (Arith.ieee 53).powerIteration3 !![(2 : ℝ)] ![3] o = .ok r) ∧
    ∃ r, (Arith.ieee 53).powerIteration4 !![(2 : ℝ)] ![3] o = .ok r := by
  have hM : AbsBound !![(2 : ℝ)] 2 := ⟨by norm_num, fun v => by
    simp only [Fin.sum_univ_one]
    rw [show (|(!![(2 : ℝ)] : Mat 1) 0 0| * |v 0|) ^ 2 = 2 ^ 2 * v 0 ^ 2 by rw [mul_pow, sq_abs, sq_abs]; rfl, Real.sqrt_mul (by norm_num), Real.sqrt_sq (by norm_num)]⟩
  refine C132_bits (m := 2) (by norm_num) hM (fun v => ?_) (by norm_num) (fun h => by simpa using congrFun h 0) o
  simp only [Fin.sum_univ_one]
  rw [show ((!![(2 : ℝ)] : Mat 1) *ᵥ v) 0 ^ 2 = 2 ^ 2 * v 0 ^ 2 by simp [mulVec, dotProduct, mul_pow], Real.sqrt_mul (by norm_num), show Real.sqrt ((2 : ℝ) ^ 2) = 2 from Real.sqrt_sq (by norm_num)]

end Ellalgo
