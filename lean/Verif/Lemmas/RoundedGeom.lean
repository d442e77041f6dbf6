import Verif.Lemmas.Rounding
import Verif.Lemmas.EllipsoidGeom
import Mathlib.Analysis.Real.Sqrt
import Mathlib.Algebra.Order.Chebyshev

/-! # Perturbation of one ellipsoid update by rounding -/

namespace Ellalgo

open Matrix Spec

variable {n : ℕ}

/-- The Euclidean norm. -/
noncomputable def nrm (x : Vec n) : ℝ := Real.sqrt (x ⬝ᵥ x)

theorem dot_self_eq (x : Vec n) : x ⬝ᵥ x = ∑ i, x i ^ 2 := by
  simp [dotProduct, pow_two]

theorem dot_self_nn (x : Vec n) : 0 ≤ x ⬝ᵥ x := by
  rw [dot_self_eq]; exact Finset.sum_nonneg fun i _ => sq_nonneg _

theorem nrm_nonneg (x : Vec n) : 0 ≤ nrm x := Real.sqrt_nonneg _

theorem nrm_sq (x : Vec n) : nrm x ^ 2 = x ⬝ᵥ x := Real.sq_sqrt (dot_self_nn x)

theorem sum_abs_mul_le (x y : Vec n) : ∑ i, |x i| * |y i| ≤ nrm x * nrm y := by
  have := Real.sum_mul_le_sqrt_mul_sqrt Finset.univ (fun i => |x i|) (fun i => |y i|)
  simp only [sq_abs] at this
  unfold nrm
  rw [dot_self_eq, dot_self_eq]
  exact this

theorem abs_dot_le (x y : Vec n) : |x ⬝ᵥ y| ≤ nrm x * nrm y := by
  refine le_trans ?_ (sum_abs_mul_le x y)
  simp only [dotProduct]
  refine (Finset.abs_sum_le_sum_abs _ _).trans (le_of_eq ?_)
  exact Finset.sum_congr rfl fun i _ => abs_mul _ _

theorem nrm_le_of_sq {x : Vec n} {r : ℝ} (hr : 0 ≤ r) (h : x ⬝ᵥ x ≤ r ^ 2) : nrm x ≤ r := by
  unfold nrm
  rw [← Real.sqrt_sq hr]
  exact Real.sqrt_le_sqrt h

theorem nrm_add_le (x y : Vec n) : nrm (x + y) ≤ nrm x + nrm y := by
  refine nrm_le_of_sq (add_nonneg (nrm_nonneg _) (nrm_nonneg _)) ?_
  have h := le_of_abs_le (abs_dot_le x y)
  have e : (x + y) ⬝ᵥ (x + y) = nrm x ^ 2 + 2 * (x ⬝ᵥ y) + nrm y ^ 2 := by
    rw [nrm_sq, nrm_sq, add_dotProduct, dotProduct_add, dotProduct_add, dotProduct_comm y x]; ring
  rw [e]; nlinarith

/-- A vector with entries at most `b` in absolute value. -/
theorem nrm_le_of_entries {x : Vec n} {b : ℝ} (hb : 0 ≤ b) (h : ∀ i, |x i| ≤ b) : nrm x ≤ Real.sqrt n * b := by
  refine nrm_le_of_sq (by positivity) ?_
  rw [mul_pow, Real.sq_sqrt (by positivity), dot_self_eq]
  calc ∑ i, x i ^ 2 ≤ ∑ _i : Fin n, b ^ 2 := Finset.sum_le_sum fun i _ => by
        rw [← sq_abs]; exact pow_le_pow_left₀ (abs_nonneg _) (h i) 2
    _ = n * b ^ 2 := by simp

/-- `m|v|² ≤ vᵀMv ≤ L|v|²` for a symmetric matrix. -/
structure Between (M : Mat n) (m L : ℝ) : Prop where
  symm : M.IsSymm
  pos : 0 < m
  lower : ∀ v : Vec n, m * (v ⬝ᵥ v) ≤ v ⬝ᵥ (M *ᵥ v)
  upper : ∀ v : Vec n, v ⬝ᵥ (M *ᵥ v) ≤ L * (v ⬝ᵥ v)

namespace Between

variable {M : Mat n} {m L : ℝ} (hM : Between M m L)
include hM

theorem herm : M.IsHermitian := by
  have := hM.symm
  rw [IsHermitian, conjTranspose_eq_transpose_of_trivial]; exact this

theorem quad_nonneg (v : Vec n) : 0 ≤ v ⬝ᵥ (M *ᵥ v) :=
  le_trans (mul_nonneg hM.pos.le (dot_self_nn v)) (hM.lower v)

theorem posSemidef : M.PosSemidef :=
  PosSemidef.of_dotProduct_mulVec_nonneg hM.herm fun v => by simpa using hM.quad_nonneg v

theorem posDef : M.PosDef :=
  PosDef.of_dotProduct_mulVec_pos hM.herm fun v hv => by
    have h1 : 0 < v ⬝ᵥ v := lt_of_le_of_ne (dot_self_nn v) fun h => hv (dotProduct_self_eq_zero.mp h.symm)
    simpa using lt_of_lt_of_le (mul_pos hM.pos h1) (hM.lower v)

/-- `|Mw|² ≤ L wᵀMw`. -/
theorem image_sq (w : Vec n) : (M *ᵥ w) ⬝ᵥ (M *ᵥ w) ≤ L * (w ⬝ᵥ (M *ᵥ w)) := by
  have h1 := cauchy_schwarz hM.posSemidef (M *ᵥ w) w
  have h2 := hM.upper (M *ᵥ w)
  have h3 := hM.quad_nonneg w
  have h4 := dot_self_nn (M *ᵥ w)
  set s := (M *ᵥ w) ⬝ᵥ (M *ᵥ w)
  set q := w ⬝ᵥ (M *ᵥ w)
  rcases h4.lt_or_eq with h5 | h5
  · have h6 : s ^ 2 ≤ L * s * q := h1.trans (mul_le_mul_of_nonneg_right h2 h3)
    have h7 : s * s ≤ s * (L * q) := by nlinarith
    exact le_of_mul_le_mul_left h7 h5
  · rw [← h5]
    rcases h3.lt_or_eq with h6 | h6
    · by_contra h
      push Not at h
      have h7 : L < 0 := by
        by_contra h8
        push Not at h8
        exact absurd h (not_lt.mpr (mul_nonneg h8 h6.le))
      have := hM.upper w
      have := dot_self_nn w
      nlinarith
    · rw [← h6]; simp

theorem one_le_ratio [NeZero n] : m ≤ L := by
  have h1 := hM.lower (Pi.single 0 1)
  have h2 := hM.upper (Pi.single 0 1)
  have h3 : (Pi.single 0 1 : Vec n) ⬝ᵥ Pi.single 0 1 = 1 := by simp
  rw [h3] at h1 h2
  linarith

theorem row_nrm [NeZero n] (i : Fin n) : nrm (M i) ≤ L := by
  have hL : 0 ≤ L := hM.pos.le.trans hM.one_le_ratio
  refine nrm_le_of_sq hL ?_
  have h1 := hM.image_sq (Pi.single i 1)
  have h2 := hM.upper (Pi.single i 1)
  have h3 : (Pi.single i 1 : Vec n) ⬝ᵥ Pi.single i 1 = 1 := by simp
  have h4 : M *ᵥ Pi.single i 1 = M i := by
    funext j; simp [Matrix.mulVec_single]; exact hM.symm.apply i j
  rw [h3, mul_one] at h2
  rw [h4] at h1 h2
  nlinarith

/-- `Σ|Mᵢⱼ||vᵢ||vⱼ| ≤ √n L|v|²`. -/
theorem abs_quad_le [NeZero n] (v : Vec n) : ∑ i, ∑ j, |M i j| * (|v i| * |v j|) ≤ Real.sqrt n * L * nrm v ^ 2 := by
  have hL : 0 ≤ L := hM.pos.le.trans hM.one_le_ratio
  have h1 : ∀ i, ∑ j, |M i j| * (|v i| * |v j|) ≤ |v i| * (L * nrm v) := fun i => by
    have : ∑ j, |M i j| * (|v i| * |v j|) = |v i| * ∑ j, |M i j| * |v j| := by
      rw [Finset.mul_sum]; exact Finset.sum_congr rfl fun j _ => by ring
    rw [this]
    refine mul_le_mul_of_nonneg_left ((sum_abs_mul_le (M i) v).trans ?_) (abs_nonneg _)
    exact mul_le_mul_of_nonneg_right (hM.row_nrm i) (nrm_nonneg _)
  have h2 : ∑ i, |v i| ≤ Real.sqrt n * nrm v := by
    have := sum_abs_mul_le v (fun _ : Fin n => (1 : ℝ))
    simp only [abs_one, mul_one] at this
    have h3 : nrm (fun _ : Fin n => (1 : ℝ)) = Real.sqrt n := by unfold nrm; simp [dotProduct]
    rw [h3] at this; linarith
  calc _ ≤ ∑ i, |v i| * (L * nrm v) := Finset.sum_le_sum fun i _ => h1 i
    _ = (∑ i, |v i|) * (L * nrm v) := by rw [Finset.sum_mul]
    _ ≤ (Real.sqrt n * nrm v) * (L * nrm v) := mul_le_mul_of_nonneg_right h2 (mul_nonneg hL (nrm_nonneg _))
    _ = _ := by ring

end Between

/-! ### One update -/

/-- The data of one cut in rounded arithmetic. -/
structure CutData (A : Arith) (u γ : ℝ) (M : Mat n) (m L : ℝ) : Prop where
  acc : A.Accurate u γ n
  u_nonneg : 0 ≤ u
  u_le : u ≤ γ
  two_le : 2 ≤ n
  btw : Between M m L

/-- The error parameter `γ √n cond(M)`. -/
noncomputable def epsOf (n : ℕ) (γ m L : ℝ) : ℝ := γ * Real.sqrt n * (L / m)

theorem shape_expand (A : Arith) (M : Mat n) (gh v : Vec n) (c : ℝ) :
    v ⬝ᵥ ((fun i j => A.sub (M i j) (A.mul c (A.mul (gh i) (gh j))) : Mat n) *ᵥ v) = v ⬝ᵥ (M *ᵥ v) - c * (v ⬝ᵥ gh) ^ 2 +
      ∑ i, ∑ j, v i * v j * (A.sub (M i j) (A.mul c (A.mul (gh i) (gh j))) - M i j + c * (gh i * gh j)) := by
  have h1 : ∀ X : Mat n, v ⬝ᵥ (X *ᵥ v) = ∑ i, ∑ j, v i * v j * X i j := fun X => by
    simp only [dotProduct, mulVec, Finset.mul_sum]
    exact Finset.sum_congr rfl fun i _ => Finset.sum_congr rfl fun j _ => by ring
  have h2 : (v ⬝ᵥ gh) ^ 2 = ∑ i, ∑ j, v i * v j * (gh i * gh j) := by
    simp only [dotProduct, pow_two, Finset.sum_mul_sum]
    exact Finset.sum_congr rfl fun i _ => Finset.sum_congr rfl fun j _ => by ring
  refine (h1 _).trans ?_
  rw [h1 M, h2, Finset.mul_sum, ← Finset.sum_sub_distrib, ← Finset.sum_add_distrib]
  refine Finset.sum_congr rfl fun i _ => ?_
  rw [Finset.mul_sum, ← Finset.sum_sub_distrib, ← Finset.sum_add_distrib]
  refine Finset.sum_congr rfl fun j _ => ?_
  ring

namespace CutData

variable {A : Arith} {u γ : ℝ} {M : Mat n} {m L : ℝ} (D : CutData A u γ M m L)
include D

theorem neZero : NeZero n := ⟨by have := D.two_le; omega⟩

theorem m_le_L : m ≤ L := by have := D.neZero; exact D.btw.one_le_ratio

theorem L_pos : 0 < L := D.btw.pos.trans_le D.m_le_L

theorem γ_nonneg : 0 ≤ γ := D.u_nonneg.trans D.u_le

theorem one_le_ratio : 1 ≤ L / m := (one_le_div D.btw.pos).mpr D.m_le_L

theorem one_le_sqrt : 1 ≤ Real.sqrt n := by
  rw [Real.one_le_sqrt]; exact_mod_cast le_trans (by norm_num) D.two_le

theorem eps_nonneg : 0 ≤ epsOf n γ m L := by
  have := D.γ_nonneg; have := D.L_pos; have := D.btw.pos
  unfold epsOf; positivity

theorem γ_mul_ratio_le : γ * (L / m) ≤ epsOf n γ m L := by
  unfold epsOf
  have h1 := D.γ_nonneg
  have h2 := D.one_le_ratio
  have h3 := D.one_le_sqrt
  calc γ * (L / m) = γ * 1 * (L / m) := by ring
    _ ≤ γ * Real.sqrt n * (L / m) := by gcongr

theorem γ_le : γ ≤ epsOf n γ m L := by
  refine le_trans ?_ D.γ_mul_ratio_le
  nlinarith [D.γ_nonneg, D.one_le_ratio]

theorem u_le_eps : u ≤ epsOf n γ m L := D.u_le.trans D.γ_le

theorem one_le_K : 1 ≤ Real.sqrt (L / m) := by rw [Real.one_le_sqrt]; exact D.one_le_ratio

theorem K_sq : Real.sqrt (L / m) ^ 2 = L / m := Real.sq_sqrt (by linarith [D.one_le_ratio])

theorem γK_le : γ * Real.sqrt (L / m) ≤ epsOf n γ m L := by
  refine le_trans ?_ D.γ_mul_ratio_le
  refine mul_le_mul_of_nonneg_left ?_ D.γ_nonneg
  have := D.one_le_K
  have := D.K_sq
  nlinarith

theorem quad_nonneg (v : Vec n) : 0 ≤ v ⬝ᵥ (M *ᵥ v) := D.btw.quad_nonneg v

theorem nrm_le (v : Vec n) : nrm v ≤ Real.sqrt (v ⬝ᵥ (M *ᵥ v)) / Real.sqrt m := by
  have hm := D.btw.pos
  rw [le_div_iff₀ (Real.sqrt_pos.mpr hm)]
  refine Real.le_sqrt_of_sq_le ?_
  rw [mul_pow, Real.sq_sqrt hm.le, nrm_sq, mul_comm]
  exact D.btw.lower v

theorem nrm_image_le (g : Vec n) : nrm (M *ᵥ g) ≤ Real.sqrt L * Real.sqrt (g ⬝ᵥ (M *ᵥ g)) := by
  refine nrm_le_of_sq (by positivity) ?_
  rw [mul_pow, Real.sq_sqrt D.L_pos.le, Real.sq_sqrt (D.quad_nonneg g)]
  exact D.btw.image_sq g

/-- The error of `mq @ grad`. -/
theorem nrm_err_le (g : Vec n) : nrm (A.mv M g - M *ᵥ g) ≤ γ * Real.sqrt n * L * nrm g := by
  have := D.neZero
  have h : ∀ i, |(A.mv M g - M *ᵥ g) i| ≤ γ * (L * nrm g) := fun i => by
    refine (D.acc.mv M g le_rfl i).trans (mul_le_mul_of_nonneg_left ?_ D.γ_nonneg)
    exact (sum_abs_mul_le (M i) g).trans (mul_le_mul_of_nonneg_right (D.btw.row_nrm i) (nrm_nonneg _))
  have := nrm_le_of_entries (mul_nonneg D.γ_nonneg (mul_nonneg D.L_pos.le (nrm_nonneg g))) h
  linarith

theorem sqrt_m_sq : Real.sqrt m * Real.sqrt m = m := Real.mul_self_sqrt D.btw.pos.le

theorem prod_err_le (g v : Vec n) : nrm v * nrm (A.mv M g - M *ᵥ g) ≤
    epsOf n γ m L * (Real.sqrt (v ⬝ᵥ (M *ᵥ v)) * Real.sqrt (g ⬝ᵥ (M *ᵥ g))) := by
  have h1 := D.nrm_le v
  have h2 := D.nrm_le g
  have h3 := D.nrm_err_le g
  have h4 := D.γ_nonneg
  have h5 := D.L_pos
  have hs : 0 < Real.sqrt m := Real.sqrt_pos.mpr D.btw.pos
  have h6 : nrm (A.mv M g - M *ᵥ g) ≤ γ * Real.sqrt n * L * (Real.sqrt (g ⬝ᵥ (M *ᵥ g)) / Real.sqrt m) :=
    h3.trans (mul_le_mul_of_nonneg_left h2 (by positivity))
  refine (mul_le_mul h1 h6 (nrm_nonneg _) (by positivity)).trans (le_of_eq ?_)
  have : epsOf n γ m L = γ * Real.sqrt n * (L / (Real.sqrt m * Real.sqrt m)) := by rw [D.sqrt_m_sq]; rfl
  rw [this]
  field_simp

theorem prod_image_le (g v : Vec n) : nrm v * nrm (M *ᵥ g) ≤
    Real.sqrt (L / m) * (Real.sqrt (v ⬝ᵥ (M *ᵥ v)) * Real.sqrt (g ⬝ᵥ (M *ᵥ g))) := by
  have h1 := D.nrm_le v
  have h2 := D.nrm_image_le g
  refine (mul_le_mul h1 h2 (nrm_nonneg _) (by positivity)).trans (le_of_eq ?_)
  rw [Real.sqrt_div D.L_pos.le]
  ring

theorem prod_comp_le (g v : Vec n) : nrm v * nrm (A.mv M g) ≤
    (Real.sqrt (L / m) + epsOf n γ m L) * (Real.sqrt (v ⬝ᵥ (M *ᵥ v)) * Real.sqrt (g ⬝ᵥ (M *ᵥ g))) := by
  have h : nrm (A.mv M g) ≤ nrm (M *ᵥ g) + nrm (A.mv M g - M *ᵥ g) := by
    have := nrm_add_le (M *ᵥ g) (A.mv M g - M *ᵥ g)
    rwa [add_sub_cancel] at this
  have h1 := D.prod_err_le g v
  have h2 := D.prod_image_le g v
  have h3 := mul_le_mul_of_nonneg_left h (nrm_nonneg v)
  linarith

/-- The error of `omega`. -/
theorem omega_err (g : Vec n) : |A.dot g (A.mv M g) - g ⬝ᵥ (M *ᵥ g)| ≤ epsOf n γ m L * (2 + epsOf n γ m L) * (g ⬝ᵥ (M *ᵥ g)) := by
  have h1 := D.acc.dot g (A.mv M g) le_rfl
  have h2 := D.prod_comp_le g g
  have h3 := D.prod_err_le g g
  have h4 : Real.sqrt (g ⬝ᵥ (M *ᵥ g)) * Real.sqrt (g ⬝ᵥ (M *ᵥ g)) = g ⬝ᵥ (M *ᵥ g) := Real.mul_self_sqrt (D.quad_nonneg g)
  rw [h4] at h2 h3
  set ω := g ⬝ᵥ (M *ᵥ g)
  have hω : 0 ≤ ω := D.quad_nonneg g
  have h5 : |g ⬝ᵥ (A.mv M g) - ω| ≤ epsOf n γ m L * ω := by
    rw [← dotProduct_sub]
    exact (abs_dot_le _ _).trans h3
  have h6 : γ * ∑ i, |g i| * |A.mv M g i| ≤ γ * ((Real.sqrt (L / m) + epsOf n γ m L) * ω) :=
    mul_le_mul_of_nonneg_left ((sum_abs_mul_le _ _).trans h2) D.γ_nonneg
  have h7 := D.γK_le
  have h8 := D.γ_le
  have h9 := D.eps_nonneg
  have h10 : γ * ((Real.sqrt (L / m) + epsOf n γ m L) * ω) ≤ (epsOf n γ m L + epsOf n γ m L * epsOf n γ m L) * ω := by
    have : γ * ((Real.sqrt (L / m) + epsOf n γ m L) * ω) = (γ * Real.sqrt (L / m) + γ * epsOf n γ m L) * ω := by ring
    rw [this]; gcongr
  calc _ ≤ |A.dot g (A.mv M g) - g ⬝ᵥ (A.mv M g)| + |g ⬝ᵥ (A.mv M g) - ω| := abs_sub_le _ _ _
    _ ≤ _ := by linarith

/-- The error of the new centre in direction `v`; `a` is the computed coefficient `rho / omega`, `r` the exact one. -/
theorem centre_err (x g v : Vec n) {a r E : ℝ} (hr : 0 ≤ r) (ha : |a - r| ≤ E * r) (hE : E ≤ 1) (hε : epsOf n γ m L ≤ 1) :
    |v ⬝ᵥ ((fun i => A.sub (x i) (A.mul a (A.mv M g i))) - (x - r • (M *ᵥ g)))| ≤
      Real.sqrt (v ⬝ᵥ (M *ᵥ v)) * (u * nrm x / Real.sqrt m + r * Real.sqrt (g ⬝ᵥ (M *ᵥ g)) * (E + (1 + E) * (3 * epsOf n γ m L + 4 * epsOf n γ m L ^ 2))) := by
  set ε := epsOf n γ m L with hεd
  set gh := A.mv M g with hgh
  set gt := M *ᵥ g with hgt
  set q := Real.sqrt (v ⬝ᵥ (M *ᵥ v)) with hq
  set w := Real.sqrt (g ⬝ᵥ gt) with hw
  have hu := D.u_nonneg
  have hε0 : 0 ≤ ε := D.eps_nonneg
  have hq0 : 0 ≤ q := Real.sqrt_nonneg _
  have hw0 : 0 ≤ w := Real.sqrt_nonneg _
  have hue : u ≤ ε := D.u_le_eps
  have ha0 : 0 ≤ a := by have := (abs_le.mp ha).1; nlinarith
  have ha1 : a ≤ (1 + E) * r := by have := (abs_le.mp ha).2; linarith
  set z : Vec n := fun i => A.sub (x i) (A.mul a (gh i)) - x i + a * gt i with hz
  have hzi : ∀ i, |z i| ≤ u * |x i| + (2 * u + u ^ 2) * a * |gh i| + a * |(gh - gt) i| := fun i => by
    have e1 := D.acc.rnd (x i - A.mul a (gh i))
    have e2 := D.acc.rnd (a * gh i)
    have e3 : |A.mul a (gh i)| ≤ (1 + u) * (a * |gh i|) := by
      have : |A.mul a (gh i)| ≤ |A.mul a (gh i) - a * gh i| + |a * gh i| := by
        have := abs_add_le (A.mul a (gh i) - a * gh i) (a * gh i); rwa [sub_add_cancel] at this
      have h2 : |a * gh i| = a * |gh i| := by rw [abs_mul, abs_of_nonneg ha0]
      have h3 : |A.mul a (gh i) - a * gh i| ≤ u * |a * gh i| := e2
      rw [h2] at h3 this
      linarith
    have e4 : |x i - A.mul a (gh i)| ≤ |x i| + (1 + u) * (a * |gh i|) := (abs_sub _ _).trans (by linarith)
    have e5 : z i = (A.sub (x i) (A.mul a (gh i)) - (x i - A.mul a (gh i))) - (A.mul a (gh i) - a * gh i) - a * (gh - gt) i := by
      simp only [hz, Pi.sub_apply]; ring
    have e6 : |A.sub (x i) (A.mul a (gh i)) - (x i - A.mul a (gh i))| ≤ u * (|x i| + (1 + u) * (a * |gh i|)) :=
      e1.trans (mul_le_mul_of_nonneg_left e4 hu)
    have e7 : |A.mul a (gh i) - a * gh i| ≤ u * (a * |gh i|) := by
      have := e2; rw [abs_mul, abs_of_nonneg ha0] at this; exact this
    have e8 : |a * (gh - gt) i| = a * |(gh - gt) i| := by rw [abs_mul, abs_of_nonneg ha0]
    rw [e5]
    refine (abs_sub _ _).trans ?_
    rw [e8]
    have := abs_sub (A.sub (x i) (A.mul a (gh i)) - (x i - A.mul a (gh i))) (A.mul a (gh i) - a * gh i)
    nlinarith
  have hsplit : v ⬝ᵥ ((fun i => A.sub (x i) (A.mul a (gh i))) - (x - r • gt)) = v ⬝ᵥ z - (a - r) * (v ⬝ᵥ gt) := by
    have : ((fun i => A.sub (x i) (A.mul a (gh i))) - (x - r • gt)) = z - (a - r) • gt := by
      funext i; simp only [hz, Pi.sub_apply, Pi.smul_apply, smul_eq_mul]; ring
    rw [this, dotProduct_sub, dotProduct_smul, smul_eq_mul]
  have hvz : |v ⬝ᵥ z| ≤ u * (nrm v * nrm x) + (2 * u + u ^ 2) * a * (nrm v * nrm gh) + a * (nrm v * nrm (gh - gt)) := by
    have h1 : |v ⬝ᵥ z| ≤ ∑ i, |v i| * |z i| := by
      simp only [dotProduct]
      refine (Finset.abs_sum_le_sum_abs _ _).trans (le_of_eq ?_)
      exact Finset.sum_congr rfl fun i _ => abs_mul _ _
    have h2 : ∑ i, |v i| * |z i| ≤ u * ∑ i, |v i| * |x i| + (2 * u + u ^ 2) * a * ∑ i, |v i| * |gh i| + a * ∑ i, |v i| * |(gh - gt) i| := by
      rw [Finset.mul_sum, Finset.mul_sum, Finset.mul_sum, ← Finset.sum_add_distrib, ← Finset.sum_add_distrib]
      refine Finset.sum_le_sum fun i _ => ?_
      have := mul_le_mul_of_nonneg_left (hzi i) (abs_nonneg (v i))
      linarith
    have h3 := mul_le_mul_of_nonneg_left (sum_abs_mul_le v x) hu
    have h4 := mul_le_mul_of_nonneg_left (sum_abs_mul_le v gh) (by positivity : 0 ≤ (2 * u + u ^ 2) * a)
    have h5 := mul_le_mul_of_nonneg_left (sum_abs_mul_le v (gh - gt)) ha0
    linarith
  have hvx : u * (nrm v * nrm x) ≤ q * (u * nrm x / Real.sqrt m) := by
    have := mul_le_mul_of_nonneg_right (D.nrm_le v) (mul_nonneg hu (nrm_nonneg x))
    calc u * (nrm v * nrm x) = nrm v * (u * nrm x) := by ring
      _ ≤ _ := this
      _ = _ := by rw [← hq]; ring
  have hK := D.γK_le
  have huK : u * Real.sqrt (L / m) ≤ ε := (mul_le_mul_of_nonneg_right D.u_le (Real.sqrt_nonneg _)).trans hK
  have hgh2 : (2 * u + u ^ 2) * a * (nrm v * nrm gh) ≤ a * (q * w) * (2 * ε + 4 * ε ^ 2) := by
    have h1 := mul_le_mul_of_nonneg_left (D.prod_comp_le g v) (by positivity : 0 ≤ (2 * u + u ^ 2) * a)
    refine h1.trans ?_
    have h2 : (2 * u + u ^ 2) * (Real.sqrt (L / m) + ε) ≤ 2 * ε + 4 * ε ^ 2 := by
      have h3 : u * (Real.sqrt (L / m) + ε) ≤ ε + ε ^ 2 := by nlinarith
      have h4 : (2 + u) * (u * (Real.sqrt (L / m) + ε)) ≤ (2 + ε) * (ε + ε ^ 2) := by
        refine mul_le_mul (by linarith) h3 (by positivity) (by linarith)
      have h5 : ε ^ 3 ≤ ε ^ 2 := by nlinarith [sq_nonneg ε]
      nlinarith
    have h6 := mul_le_mul_of_nonneg_left h2 (by positivity : 0 ≤ a * (q * w))
    calc _ = a * (q * w) * ((2 * u + u ^ 2) * (Real.sqrt (L / m) + ε)) := by ring
      _ ≤ _ := h6
  have hgh3 : a * (nrm v * nrm (gh - gt)) ≤ a * (q * w) * ε := by
    have := mul_le_mul_of_nonneg_left (D.prod_err_le g v) ha0
    calc _ ≤ _ := this
      _ = _ := by ring
  have hcs : |v ⬝ᵥ gt| ≤ q * w := by
    have := cauchy_schwarz D.btw.posSemidef v g
    rw [← Real.sqrt_mul (D.quad_nonneg v)]
    exact Real.abs_le_sqrt this
  have hcoef : |(a - r) * (v ⬝ᵥ gt)| ≤ E * r * (q * w) := by
    rw [abs_mul]
    exact mul_le_mul ha hcs (abs_nonneg _) (le_trans (abs_nonneg _) ha)
  have hfin : a * (q * w) * (3 * ε + 4 * ε ^ 2) ≤ (1 + E) * r * (q * w) * (3 * ε + 4 * ε ^ 2) := by
    have : 0 ≤ (q * w) * (3 * ε + 4 * ε ^ 2) := by positivity
    nlinarith
  rw [hsplit]
  have := abs_sub (v ⬝ᵥ z) ((a - r) * (v ⬝ᵥ gt))
  calc _ ≤ |v ⬝ᵥ z| + |(a - r) * (v ⬝ᵥ gt)| := this
    _ ≤ q * (u * nrm x / Real.sqrt m) + (1 + E) * r * (q * w) * (3 * ε + 4 * ε ^ 2) + E * r * (q * w) := by linarith
    _ = _ := by ring

/-- The error of one entry of the new shape matrix. -/
theorem shape_entry (gh : Vec n) {c : ℝ} (hc0 : 0 ≤ c) (i j : Fin n) :
    |A.sub (M i j) (A.mul c (A.mul (gh i) (gh j))) - M i j + c * (gh i * gh j)| ≤ u * |M i j| + c * (3 * u + 3 * u ^ 2 + u ^ 3) * (|gh i| * |gh j|) := by
  have hu := D.u_nonneg
  have hb : |gh i * gh j| = |gh i| * |gh j| := abs_mul _ _
  have e1 : |A.mul (gh i) (gh j) - gh i * gh j| ≤ u * (|gh i| * |gh j|) := by
    have := D.acc.rnd (gh i * gh j); rw [hb] at this; exact this
  set G := A.mul (gh i) (gh j) with hG
  have e2 : |G| ≤ (1 + u) * (|gh i| * |gh j|) := by
    have := abs_add_le (G - gh i * gh j) (gh i * gh j); rw [sub_add_cancel, hb] at this; linarith
  have e3 : |A.mul c G - c * G| ≤ u * (c * |G|) := by
    have := D.acc.rnd (c * G); rw [abs_mul, abs_of_nonneg hc0] at this; exact this
  have e4 : |A.mul c G| ≤ (1 + u) * (c * |G|) := by
    have := abs_add_le (A.mul c G - c * G) (c * G)
    rw [sub_add_cancel, abs_mul c G, abs_of_nonneg hc0] at this; linarith
  have e5 : |A.sub (M i j) (A.mul c G) - (M i j - A.mul c G)| ≤ u * (|M i j| + |A.mul c G|) :=
    (D.acc.rnd _).trans (mul_le_mul_of_nonneg_left (abs_sub _ _) hu)
  have e6 : A.sub (M i j) (A.mul c G) - M i j + c * (gh i * gh j) = (A.sub (M i j) (A.mul c G) - (M i j - A.mul c G)) - (A.mul c G - c * G) - c * (G - gh i * gh j) := by
    ring
  have e7 : |c * (G - gh i * gh j)| ≤ c * (u * (|gh i| * |gh j|)) := by
    rw [abs_mul, abs_of_nonneg hc0]; exact mul_le_mul_of_nonneg_left e1 hc0
  have e8 : c * |G| ≤ c * ((1 + u) * (|gh i| * |gh j|)) := mul_le_mul_of_nonneg_left e2 hc0
  have e9 : u * ((1 + u) * (c * |G|)) ≤ u * ((1 + u) * (c * ((1 + u) * (|gh i| * |gh j|)))) := by gcongr
  have e10 : u * (c * |G|) ≤ u * (c * ((1 + u) * (|gh i| * |gh j|))) := by gcongr
  have e11 : u * |A.mul c G| ≤ u * ((1 + u) * (c * |G|)) := by gcongr
  rw [e6]
  have t1 := abs_sub ((A.sub (M i j) (A.mul c G) - (M i j - A.mul c G)) - (A.mul c G - c * G)) (c * (G - gh i * gh j))
  have t2 := abs_sub (A.sub (M i j) (A.mul c G) - (M i j - A.mul c G)) (A.mul c G - c * G)
  calc _ ≤ u * (|M i j| + |A.mul c G|) + u * (c * |G|) + c * (u * (|gh i| * |gh j|)) := by linarith
    _ ≤ u * |M i j| + u * ((1 + u) * (c * ((1 + u) * (|gh i| * |gh j|)))) + u * (c * ((1 + u) * (|gh i| * |gh j|))) + c * (u * (|gh i| * |gh j|)) := by linarith
    _ = _ := by ring

set_option maxHeartbeats 1000000 in
/-- The error of the new shape matrix; `c` is the computed coefficient `sigma / omega`, `s` the exact one. -/
theorem shape_err (g v : Vec n) {c s E : ℝ} (hs : 0 ≤ s) (hc : |c - s| ≤ E * s) (hE : E ≤ 1) (hε : epsOf n γ m L ≤ 1 / 10) :
    |v ⬝ᵥ ((fun i j => A.sub (M i j) (A.mul c (A.mul (A.mv M g i) (A.mv M g j))) : Mat n) *ᵥ v) -
        v ⬝ᵥ ((M - s • vecMulVec (M *ᵥ g) (M *ᵥ g)) *ᵥ v)| ≤
      v ⬝ᵥ (M *ᵥ v) * (epsOf n γ m L + s * (g ⬝ᵥ (M *ᵥ g)) * (E + (1 + E) * (8 * epsOf n γ m L))) := by
  have hne := D.neZero
  rw [quad_update D.btw.herm]
  set ε := epsOf n γ m L with hεd
  set gh := A.mv M g with hgh
  set gt := M *ᵥ g with hgt
  set Q := v ⬝ᵥ (M *ᵥ v) with hQ
  set ω := g ⬝ᵥ gt with hω
  have hu := D.u_nonneg
  have hε0 : 0 ≤ ε := D.eps_nonneg
  have hQ0 : 0 ≤ Q := D.quad_nonneg v
  have hω0 : 0 ≤ ω := D.quad_nonneg g
  have hue : u ≤ ε := D.u_le_eps
  have hc0 : 0 ≤ c := by have := (abs_le.mp hc).1; nlinarith
  have hc1 : c ≤ (1 + E) * s := by have := (abs_le.mp hc).2; linarith
  set U := 3 * u + 3 * u ^ 2 + u ^ 3 with hU
  have hU0 : 0 ≤ U := by positivity
  obtain ⟨W, hW⟩ : ∃ W : Mat n, W = fun i j => A.sub (M i j) (A.mul c (A.mul (gh i) (gh j))) - M i j + c * (gh i * gh j) := ⟨_, rfl⟩
  have hWij : ∀ i j, |W i j| ≤ u * |M i j| + c * U * (|gh i| * |gh j|) := fun i j => by rw [hW]; exact D.shape_entry gh hc0 i j
  have hexp : v ⬝ᵥ ((fun i j => A.sub (M i j) (A.mul c (A.mul (gh i) (gh j))) : Mat n) *ᵥ v) = Q - c * (v ⬝ᵥ gh) ^ 2 + ∑ i, ∑ j, v i * v j * W i j := by
    rw [hW]; exact shape_expand A M gh v c
  have hsum : |∑ i, ∑ j, v i * v j * W i j| ≤ u * (Real.sqrt n * L * nrm v ^ 2) + c * U * (nrm v * nrm gh) ^ 2 := by
    have h1 : |∑ i, ∑ j, v i * v j * W i j| ≤ ∑ i, ∑ j, |v i| * |v j| * |W i j| := by
      refine (Finset.abs_sum_le_sum_abs _ _).trans (Finset.sum_le_sum fun i _ => ?_)
      refine (Finset.abs_sum_le_sum_abs _ _).trans (le_of_eq ?_)
      exact Finset.sum_congr rfl fun j _ => by rw [abs_mul, abs_mul]
    have h2 : ∑ i, ∑ j, |v i| * |v j| * |W i j| ≤ u * (∑ i, ∑ j, |M i j| * (|v i| * |v j|)) + c * U * (∑ i, |v i| * |gh i|) ^ 2 := by
      rw [pow_two, Finset.sum_mul_sum, Finset.mul_sum, Finset.mul_sum, ← Finset.sum_add_distrib]
      refine Finset.sum_le_sum fun i _ => ?_
      rw [Finset.mul_sum, Finset.mul_sum, ← Finset.sum_add_distrib]
      refine Finset.sum_le_sum fun j _ => ?_
      have := mul_le_mul_of_nonneg_left (hWij i j) (mul_nonneg (abs_nonneg (v i)) (abs_nonneg (v j)))
      linarith
    have h3 := mul_le_mul_of_nonneg_left (D.btw.abs_quad_le v) hu
    have h4 : (∑ i, |v i| * |gh i|) ^ 2 ≤ (nrm v * nrm gh) ^ 2 :=
      pow_le_pow_left₀ (Finset.sum_nonneg fun i _ => mul_nonneg (abs_nonneg _) (abs_nonneg _)) (sum_abs_mul_le v gh) 2
    have h5 := mul_le_mul_of_nonneg_left h4 (mul_nonneg hc0 hU0)
    linarith
  have hqq : Real.sqrt Q ^ 2 = Q := Real.sq_sqrt hQ0
  have hww : Real.sqrt ω ^ 2 = ω := Real.sq_sqrt hω0
  have hfirst : u * (Real.sqrt n * L * nrm v ^ 2) ≤ ε * Q := by
    have h1 : nrm v ^ 2 ≤ Q / m := by
      rw [le_div_iff₀ D.btw.pos, nrm_sq, mul_comm]; exact D.btw.lower v
    have h2 : u * (Real.sqrt n * L * nrm v ^ 2) ≤ γ * (Real.sqrt n * L * (Q / m)) := by
      have := D.L_pos; have := D.u_le; have := D.γ_nonneg
      gcongr
    refine h2.trans (le_of_eq ?_)
    rw [hεd, epsOf]; ring
  have hcomp : (nrm v * nrm gh) ^ 2 ≤ (Real.sqrt (L / m) + ε) ^ 2 * (Q * ω) := by
    have h1 := pow_le_pow_left₀ (mul_nonneg (nrm_nonneg v) (nrm_nonneg gh)) (D.prod_comp_le g v) 2
    rw [mul_pow (Real.sqrt (L / m) + ε), mul_pow (Real.sqrt Q), hqq, hww] at h1
    exact h1
  have hUK : U * (Real.sqrt (L / m) + ε) ^ 2 ≤ 5 * ε := by
    have hK1 := D.one_le_K
    have hK2 := D.K_sq
    have hK3 : u * (L / m) ≤ ε := (mul_le_mul_of_nonneg_right D.u_le (by linarith [D.one_le_ratio])).trans D.γ_mul_ratio_le
    have h1 : (Real.sqrt (L / m) + ε) ^ 2 ≤ (L / m) * (1 + ε) ^ 2 := by
      have h0 : (Real.sqrt (L / m) + ε) ^ 2 ≤ (Real.sqrt (L / m) * (1 + ε)) ^ 2 := pow_le_pow_left₀ (by positivity) (by nlinarith) 2
      rwa [mul_pow, hK2] at h0
    have h2 : U ≤ u * (7 / 2) := by
      have h3 : u ≤ 1 / 10 := hue.trans hε
      have h4 : u ^ 2 ≤ u * (1 / 10) := by nlinarith
      have h5 : u ^ 3 ≤ u ^ 2 * (1 / 10) := by rw [pow_succ]; exact mul_le_mul_of_nonneg_left h3 (sq_nonneg u)
      rw [hU]; linarith
    have h6 : (1 + ε) ^ 2 ≤ 121 / 100 := by nlinarith
    calc U * (Real.sqrt (L / m) + ε) ^ 2 ≤ (u * (7 / 2)) * ((L / m) * (1 + ε) ^ 2) := by
          refine mul_le_mul h2 h1 (by positivity) (by positivity)
      _ = (u * (L / m)) * (7 / 2 * (1 + ε) ^ 2) := by ring
      _ ≤ ε * (7 / 2 * (121 / 100)) := by
          refine mul_le_mul hK3 (by linarith) (by positivity) hε0
      _ ≤ 5 * ε := by linarith
  have hsecond : c * U * (nrm v * nrm gh) ^ 2 ≤ c * (Q * ω) * (5 * ε) := by
    have h1 := mul_le_mul_of_nonneg_left hcomp (mul_nonneg hc0 hU0)
    refine h1.trans ?_
    calc _ = c * (Q * ω) * (U * (Real.sqrt (L / m) + ε) ^ 2) := by ring
      _ ≤ _ := mul_le_mul_of_nonneg_left hUK (by positivity)
  have hcs : (v ⬝ᵥ gt) ^ 2 ≤ Q * ω := cauchy_schwarz D.btw.posSemidef v g
  have hcsa : |v ⬝ᵥ gt| ≤ Real.sqrt Q * Real.sqrt ω := by
    rw [← Real.sqrt_mul hQ0]; exact Real.abs_le_sqrt hcs
  have hdiff : |(v ⬝ᵥ gh) ^ 2 - (v ⬝ᵥ gt) ^ 2| ≤ (Q * ω) * (3 * ε) := by
    have h1 : |v ⬝ᵥ (gh - gt)| ≤ ε * (Real.sqrt Q * Real.sqrt ω) := (abs_dot_le _ _).trans (D.prod_err_le g v)
    have h2 : (v ⬝ᵥ gh) ^ 2 - (v ⬝ᵥ gt) ^ 2 = (v ⬝ᵥ (gh - gt)) * (2 * (v ⬝ᵥ gt) + v ⬝ᵥ (gh - gt)) := by
      rw [dotProduct_sub]; ring
    have h3 : |2 * (v ⬝ᵥ gt) + v ⬝ᵥ (gh - gt)| ≤ (2 + ε) * (Real.sqrt Q * Real.sqrt ω) := by
      refine (abs_add_le _ _).trans ?_
      rw [abs_mul, abs_two]; linarith
    rw [h2, abs_mul]
    have h4 := mul_le_mul h1 h3 (abs_nonneg _) (by positivity)
    refine h4.trans ?_
    calc _ = (Real.sqrt Q ^ 2 * Real.sqrt ω ^ 2) * (ε * (2 + ε)) := by ring
      _ = (Q * ω) * (ε * (2 + ε)) := by rw [hqq, hww]
      _ ≤ _ := mul_le_mul_of_nonneg_left (by nlinarith) (by positivity)
  have hgv : (g ⬝ᵥ (M *ᵥ v)) = v ⬝ᵥ gt := IsHermitian.dot_comm D.btw.herm g v
  rw [hexp, hgv]
  have hthird : |(c - s) * (v ⬝ᵥ gt) ^ 2| ≤ E * s * (Q * ω) := by
    rw [abs_mul, abs_of_nonneg (sq_nonneg (v ⬝ᵥ gt))]
    exact mul_le_mul hc hcs (sq_nonneg _) (le_trans (abs_nonneg _) hc)
  have hdiff' : |c * ((v ⬝ᵥ gh) ^ 2 - (v ⬝ᵥ gt) ^ 2)| ≤ c * ((Q * ω) * (3 * ε)) := by
    rw [abs_mul, abs_of_nonneg hc0]; exact mul_le_mul_of_nonneg_left hdiff hc0
  have hre : Q - c * (v ⬝ᵥ gh) ^ 2 + ∑ i, ∑ j, v i * v j * W i j - (Q - s * (v ⬝ᵥ gt) ^ 2) =
      ∑ i, ∑ j, v i * v j * W i j - c * ((v ⬝ᵥ gh) ^ 2 - (v ⬝ᵥ gt) ^ 2) - (c - s) * (v ⬝ᵥ gt) ^ 2 := by ring
  rw [hre]
  have t1 := abs_sub (∑ i, ∑ j, v i * v j * W i j - c * ((v ⬝ᵥ gh) ^ 2 - (v ⬝ᵥ gt) ^ 2)) ((c - s) * (v ⬝ᵥ gt) ^ 2)
  have t2 := abs_sub (∑ i, ∑ j, v i * v j * W i j) (c * ((v ⬝ᵥ gh) ^ 2 - (v ⬝ᵥ gt) ^ 2))
  have hfin : c * (Q * ω) * (8 * ε) ≤ (1 + E) * s * (Q * ω) * (8 * ε) := by
    have : 0 ≤ (Q * ω) * (8 * ε) := by positivity
    have := mul_le_mul_of_nonneg_right hc1 this
    linarith
  calc _ ≤ ε * Q + c * (Q * ω) * (5 * ε) + c * ((Q * ω) * (3 * ε)) + E * s * (Q * ω) := by linarith
    _ = ε * Q + c * (Q * ω) * (8 * ε) + E * s * (Q * ω) := by ring
    _ ≤ ε * Q + (1 + E) * s * (Q * ω) * (8 * ε) + E * s * (Q * ω) := by linarith
    _ = _ := by ring

end CutData

/-- Transfer of containment from an exact update to a perturbed one, in support form. -/
theorem support_transfer {M M' Mh : Mat n} {c' ch : Vec n} {κ δ κh σ b d k : ℝ}
    (hQ : ∀ v : Vec n, 0 ≤ v ⬝ᵥ (M *ᵥ v)) (hκ : 0 < κ) (hδ : 0 < δ) (hσ : σ < 1)
    (hM' : ∀ v, (1 - σ) * (v ⬝ᵥ (M *ᵥ v)) ≤ v ⬝ᵥ (M' *ᵥ v))
    (hMh : ∀ v, v ⬝ᵥ (M' *ᵥ v) - b * (v ⬝ᵥ (M *ᵥ v)) ≤ v ⬝ᵥ (Mh *ᵥ v))
    (hc : ∀ v, |v ⬝ᵥ (ch - c')| ≤ Real.sqrt (v ⬝ᵥ (M *ᵥ v)) * d * Real.sqrt κ)
    (hb0 : 0 ≤ b) (hd : 0 ≤ d) (hb : b < 1 - σ) (hk : κ * δ ≤ k * κh)
    {x : Vec n} (hx : x ∈ supportSet M' (κ * δ) c') :
    x ∈ supportSet Mh (κh * (k * (1 + d / Real.sqrt (δ * (1 - σ))) ^ 2 / (1 - b / (1 - σ)))) ch := by
  intro v
  have h1 : 0 < 1 - σ := by linarith
  have hQv := hQ v
  have hM'v := hM' v
  have hMhv := hMh v
  have hcv := hc v
  have hxv := hx v
  set Q := v ⬝ᵥ (M *ᵥ v)
  set Q' := v ⬝ᵥ (M' *ᵥ v)
  set Qh := v ⬝ᵥ (Mh *ᵥ v)
  have hQ'0 : 0 ≤ Q' := le_trans (mul_nonneg h1.le hQv) hM'v
  have hb1 : 0 < 1 - b / (1 - σ) := by rw [sub_pos, div_lt_one h1]; exact hb
  have hQQ : Q ≤ Q' / (1 - σ) := by rw [le_div_iff₀ h1]; linarith
  have hQ'h : Q' ≤ Qh / (1 - b / (1 - σ)) := by
    rw [le_div_iff₀ hb1]
    have : b * Q ≤ b * (Q' / (1 - σ)) := mul_le_mul_of_nonneg_left hQQ hb0
    calc Q' * (1 - b / (1 - σ)) = Q' - b * (Q' / (1 - σ)) := by ring
      _ ≤ Qh := by linarith
  set S := Real.sqrt (κ * δ * Q') with hS
  have hS0 : 0 ≤ S := Real.sqrt_nonneg _
  have hS2 : S ^ 2 = κ * δ * Q' := Real.sq_sqrt (by positivity)
  have hxa : |v ⬝ᵥ (x - c')| ≤ S := Real.abs_le_sqrt hxv
  have hds : Real.sqrt Q * d * Real.sqrt κ ≤ S * (d / Real.sqrt (δ * (1 - σ))) := by
    have h2 : Real.sqrt Q * Real.sqrt κ * Real.sqrt (δ * (1 - σ)) ≤ S := by
      rw [← Real.sqrt_mul hQv, ← Real.sqrt_mul (by positivity)]
      refine Real.sqrt_le_sqrt ?_
      calc Q * κ * (δ * (1 - σ)) = κ * δ * ((1 - σ) * Q) := by ring
        _ ≤ _ := mul_le_mul_of_nonneg_left hM'v (by positivity)
    have h3 : 0 < Real.sqrt (δ * (1 - σ)) := Real.sqrt_pos.mpr (by positivity)
    rw [← mul_div_assoc, le_div_iff₀ h3]
    calc Real.sqrt Q * d * Real.sqrt κ * Real.sqrt (δ * (1 - σ)) = (Real.sqrt Q * Real.sqrt κ * Real.sqrt (δ * (1 - σ))) * d := by ring
      _ ≤ S * d := mul_le_mul_of_nonneg_right h2 hd
  have hsum : |v ⬝ᵥ (x - ch)| ≤ S * (1 + d / Real.sqrt (δ * (1 - σ))) := by
    have e : v ⬝ᵥ (x - ch) = v ⬝ᵥ (x - c') - v ⬝ᵥ (ch - c') := by
      rw [← dotProduct_sub]; congr 1; abel
    rw [e]
    refine (abs_sub _ _).trans ?_
    linarith
  set t := 1 + d / Real.sqrt (δ * (1 - σ)) with ht
  have ht0 : 0 ≤ t := by positivity
  calc (v ⬝ᵥ (x - ch)) ^ 2 = |v ⬝ᵥ (x - ch)| ^ 2 := (sq_abs _).symm
    _ ≤ (S * t) ^ 2 := pow_le_pow_left₀ (abs_nonneg _) hsum 2
    _ = κ * δ * t ^ 2 * Q' := by rw [mul_pow, hS2]; ring
    _ ≤ κ * δ * t ^ 2 * (Qh / (1 - b / (1 - σ))) := mul_le_mul_of_nonneg_left hQ'h (by positivity)
    _ ≤ (k * κh) * t ^ 2 * (Qh / (1 - b / (1 - σ))) := by
        have : 0 ≤ Qh / (1 - b / (1 - σ)) := hQ'0.trans hQ'h
        gcongr
    _ = _ := by ring

end Ellalgo
