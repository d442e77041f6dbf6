import Verif.Model.RoundedLmi
import Verif.Props.RoundedLdlt
import Verif.Props.Rounded
import Verif.Props.Lmi
import Mathlib.LinearAlgebra.Matrix.Notation

/-! # C93: the LMI oracles in floating point -/

namespace Ellalgo

open Matrix Spec LDLTMgr Finset

/-- `Σ_ij |v_i| |M_ij| |v_j|`. -/
def absQuad {m : ℕ} (M : Mat m) (v : Vec m) : ℝ := ∑ i, ∑ j, |v i| * |M i j| * |v j|

variable {A : Arith} {u γ : ℝ} {m q : ℕ}

theorem absQuad_nonneg (M : Mat m) (v : Vec m) : 0 ≤ absQuad M v := by unfold absQuad; positivity

theorem Arith.psum_err (hA : A.Accurate u γ m) (hu : 0 ≤ u) (hq : (1 + u) ^ (q + 1) - 1 ≤ γ) (x y : Vec q) : |A.psum x y - x ⬝ᵥ y| ≤ γ * ∑ k, |x k| * |y k| :=
  (abs_seqDot_sub_le hu hA.rnd x y).trans (mul_le_mul_of_nonneg_right hq (by positivity))

theorem quad_diff_le {M N T : Mat m} {θ : ℝ} (h : ∀ i j, |M i j - N i j| ≤ θ * |T i j|) (v : Vec m) : |v ⬝ᵥ (M *ᵥ v) - v ⬝ᵥ (N *ᵥ v)| ≤ θ * absQuad T v := by
  unfold absQuad
  simp only [dotProduct, mulVec, mul_sum]
  rw [← sum_sub_distrib]
  refine (abs_sum_le_sum_abs _ _).trans (sum_le_sum fun i _ => ?_)
  rw [← sum_sub_distrib]
  refine (abs_sum_le_sum_abs _ _).trans (sum_le_sum fun j _ => ?_)
  rw [show v i * (M i j * v j) - v i * (N i j * v j) = v i * (M i j - N i j) * v j by ring, abs_mul, abs_mul]
  calc |v i| * |M i j - N i j| * |v j| ≤ |v i| * (θ * |T i j|) * |v j| := by gcongr; exact h i j
    _ = _ := by ring

theorem diag_le_absQuad {T : Mat m} (v : Vec m) : ∑ i, |T i i| * v i ^ 2 ≤ absQuad T v := by
  unfold absQuad
  refine sum_le_sum fun i _ => ?_
  calc |T i i| * v i ^ 2 = |v i| * |T i i| * |v i| := by rw [← sq_abs (v i)]; ring
    _ ≤ _ := single_le_sum (f := fun j => |v i| * |T i j| * |v j|) (fun j _ => by positivity) (mem_univ i)

theorem dot_abs_le {n : ℕ} (x y : Vec n) : |x ⬝ᵥ y| ≤ ∑ k, |x k| * |y k| := by
  refine (abs_sum_le_sum_abs _ _).trans (sum_le_sum fun k _ => ?_)
  rw [abs_mul]

/-- The quadratic form computed by `sym_quad`. -/
theorem Arith.symQuad_err (hA : A.Accurate u γ m) (hγ0 : 0 ≤ γ) (hγ : γ ≤ 1 / 10) (mgr : LDLTMgr ℝ) (hp : mgr.pos.2 ≤ m) (F : Mat m) :
    |A.symQuad mgr (toArr2 F) - sliceVec m mgr.wit mgr.pos.1 mgr.pos.2 ⬝ᵥ (F *ᵥ sliceVec m mgr.wit mgr.pos.1 mgr.pos.2)| ≤
      21 / 10 * γ * absQuad F (sliceVec m mgr.wit mgr.pos.1 mgr.pos.2) := by
  have habs : absQuad F (sliceVec m mgr.wit mgr.pos.1 mgr.pos.2) = ∑ r ∈ Ico mgr.pos.1 mgr.pos.2, |mgr.wit r| * ∑ j ∈ Ico mgr.pos.1 mgr.pos.2, |toArr2 F r j| * |mgr.wit j| := by
    have h := quad_mat (s := mgr.pos.1) hp (fun i j => |F i j| : Mat m) (fun r => |mgr.wit r|)
    have e1 : ∀ r j, toArr2 (fun i j => |F i j| : Mat m) r j = |toArr2 F r j| := fun r j => by
      unfold toArr2; split_ifs <;> simp
    simp only [e1] at h
    rw [← h]
    unfold absQuad
    simp only [dotProduct, mulVec, mul_sum]
    refine sum_congr rfl fun i _ => sum_congr rfl fun j _ => ?_
    unfold sliceVec
    split_ifs <;> simp [mul_assoc]
  rw [habs, quad_mat hp]
  unfold Arith.symQuad
  simp only
  set s := mgr.pos.1
  set p := mgr.pos.2
  set w := Arith.slice mgr.wit s p with hw
  set G : Mat (p - s) := fun i j => toArr2 F (s + i) (s + j) with hG
  have h1 := hA.dot w (A.mv G w) (by omega)
  have h2 := hA.mv G w (by omega)
  have e2 : ∑ r ∈ Ico s p, mgr.wit r * ∑ j ∈ Ico s p, toArr2 F r j * mgr.wit j = w ⬝ᵥ (G *ᵥ w) := by
    rw [← sum_slice_fin (fun r => mgr.wit r * ∑ j ∈ Ico s p, toArr2 F r j * mgr.wit j)]
    refine sum_congr rfl fun i _ => ?_
    rw [← sum_slice_fin (fun j => toArr2 F (s + i) j * mgr.wit j)]
    rfl
  have e3 : ∑ r ∈ Ico s p, |mgr.wit r| * ∑ j ∈ Ico s p, |toArr2 F r j| * |mgr.wit j| = ∑ i, |w i| * ∑ j, |G i j| * |w j| := by
    rw [← sum_slice_fin (fun r => |mgr.wit r| * ∑ j ∈ Ico s p, |toArr2 F r j| * |mgr.wit j|)]
    refine sum_congr rfl fun i _ => ?_
    rw [← sum_slice_fin (fun j => |toArr2 F (s + i) j| * |mgr.wit j|)]
    rfl
  rw [e2, e3]
  have h3 : |w ⬝ᵥ A.mv G w - w ⬝ᵥ (G *ᵥ w)| ≤ γ * ∑ i, |w i| * ∑ j, |G i j| * |w j| := by
    rw [← dotProduct_sub]
    refine (abs_sum_le_sum_abs _ _).trans ?_
    rw [mul_sum]
    refine sum_le_sum fun i _ => ?_
    rw [abs_mul]
    calc |w i| * |(A.mv G w - G *ᵥ w) i| ≤ |w i| * (γ * ∑ j, |G i j| * |w j|) := mul_le_mul_of_nonneg_left (h2 i) (abs_nonneg _)
      _ = _ := by ring
  have h4 : ∑ i, |w i| * |A.mv G w i| ≤ (1 + γ) * ∑ i, |w i| * ∑ j, |G i j| * |w j| := by
    rw [mul_sum]
    refine sum_le_sum fun i _ => ?_
    have h5 : |A.mv G w i| ≤ (1 + γ) * ∑ j, |G i j| * |w j| := by
      have h6 : |(G *ᵥ w) i| ≤ ∑ j, |G i j| * |w j| := dot_abs_le (G i) w
      have h7 := abs_sub_abs_le_abs_sub (A.mv G w i) ((G *ᵥ w) i)
      have := h2 i
      linarith
    calc |w i| * |A.mv G w i| ≤ |w i| * ((1 + γ) * ∑ j, |G i j| * |w j|) := mul_le_mul_of_nonneg_left h5 (abs_nonneg _)
      _ = _ := by ring
  have hS : 0 ≤ ∑ i, |w i| * ∑ j, |G i j| * |w j| := by positivity
  set S := ∑ i, |w i| * ∑ j, |G i j| * |w j|
  have h5 : γ * ∑ i, |w i| * |A.mv G w i| ≤ γ * ((1 + γ) * S) := mul_le_mul_of_nonneg_left h4 hγ0
  have h6 : γ * γ * S ≤ γ * (1 / 10) * S := by gcongr
  have h7 := abs_sub_le (A.dot w (A.mv G w)) (w ⬝ᵥ A.mv G w) (w ⬝ᵥ (G *ᵥ w))
  nlinarith

/-- Entries that are close to those of a symmetric matrix. -/
theorem symOf_close {M T : Mat m} {a : ℕ → ℕ → ℝ} {θ : ℝ} (hM : M.IsSymm) (hT : T.IsSymm) (h : ∀ i j : Fin m, |a i j - M i j| ≤ θ * |T i j|) (i j : Fin m) :
    |symOf m a i j - M i j| ≤ θ * |T i j| := by
  unfold symOf
  split_ifs
  · exact h i j
  · rw [← hM.apply, ← hT.apply]; exact h j i

/-- Acceptance of a matrix whose entries were computed with small errors. -/
theorem close_accepted (mgr : LDLTMgr ℝ) (hA : A.Accurate u γ mgr.ndim) (hu : 0 ≤ u) (huγ : u ≤ γ) (hγ : 10 * mgr.ndim * γ ≤ 1) {M T : Mat mgr.ndim} {a : ℕ → ℕ → ℝ}
    (hM : M.IsSymm) (hT : T.IsSymm) (hMT : ∀ i j, |M i j| ≤ |T i j|) (ha : ∀ i j : Fin mgr.ndim, |a i j - M i j| ≤ 21 / 10 * γ * |T i j|)
    (h : (A.factor mgr a).2.1 = true) (v : Vec mgr.ndim) : -(7 * mgr.ndim * γ * absQuad T v) ≤ v ⬝ᵥ (M *ᵥ v) := by
  have hγ0 := hu.trans huγ
  rcases Nat.eq_zero_or_pos mgr.ndim with h0 | h0
  · have : IsEmpty (Fin mgr.ndim) := by rw [h0]; infer_instance
    have e1 : v ⬝ᵥ (M *ᵥ v) = 0 := by simp [dotProduct]
    have e2 : (mgr.ndim : ℝ) = 0 := by exact_mod_cast h0
    rw [e1, e2]; simp
  have hn1 : (1 : ℝ) ≤ mgr.ndim := by exact_mod_cast h0
  have hγ1 : γ ≤ 1 / 10 := by nlinarith
  have h1 := C92_accepted mgr hA hu huγ hγ1 a h v
  have h2 := (abs_le.mp (quad_diff_le (symOf_close hM hT ha) v)).2
  have h3 : ∑ i : Fin mgr.ndim, a i i * v i ^ 2 ≤ 121 / 100 * absQuad T v := by
    refine le_trans ?_ (mul_le_mul_of_nonneg_left (diag_le_absQuad v) (by norm_num))
    rw [mul_sum]
    refine sum_le_sum fun i _ => ?_
    have h4 := (abs_le.mp (ha i i)).2
    have h5 := (abs_le.mp (hMT i i)).2
    have h6 : 21 / 10 * γ * |T i i| ≤ 21 / 100 * |T i i| := mul_le_mul_of_nonneg_right (by linarith) (abs_nonneg _)
    rw [← mul_assoc]
    exact mul_le_mul_of_nonneg_right (by linarith) (sq_nonneg _)
  have hW := absQuad_nonneg T v
  have h7 : 4 * mgr.ndim * γ * ∑ i : Fin mgr.ndim, a i i * v i ^ 2 ≤ 4 * mgr.ndim * γ * (121 / 100 * absQuad T v) := mul_le_mul_of_nonneg_left h3 (by positivity)
  have h8 : γ * absQuad T v ≤ mgr.ndim * (γ * absQuad T v) := le_mul_of_one_le_left (by positivity) hn1
  have h9 : 0 ≤ mgr.ndim * (γ * absQuad T v) := by positivity
  nlinarith

/-- Rejection of a matrix whose entries were computed with small errors. -/
theorem close_rejected (mgr : LDLTMgr ℝ) (hA : A.Accurate u γ mgr.ndim) (hu : 0 ≤ u) (huγ : u ≤ γ) (hγ : 10 * mgr.ndim * γ ≤ 1) {M T : Mat mgr.ndim} {a : ℕ → ℕ → ℝ}
    (hM : M.IsSymm) (hT : T.IsSymm) (hMT : ∀ i j, |M i j| ≤ |T i j|) (ha : ∀ i j : Fin mgr.ndim, |a i j - M i j| ≤ 21 / 10 * γ * |T i j|)
    (h : (A.factor mgr a).2.1 = false) : ∃ m2 ep, A.witness (A.factor mgr a).1 = (m2, .ok ep) ∧ m2.ndim = mgr.ndim ∧ 0 ≤ ep ∧ ∃ v : Vec mgr.ndim, (∃ i, v i = 1) ∧
      v ⬝ᵥ (M *ᵥ v) ≤ 11 * mgr.ndim * γ * absQuad T v ∧ |v ⬝ᵥ (M *ᵥ v) + ep| ≤ 13 * mgr.ndim * γ * (absQuad T v + ep) ∧
      ∀ F : Mat mgr.ndim, |A.symQuad m2 (toArr2 F) - v ⬝ᵥ (F *ᵥ v)| ≤ 21 / 10 * γ * absQuad F v := by
  have hγ0 := hu.trans huγ
  obtain ⟨m2, ep, h1, hep, -, hp1, hp2, hw, hv, h2, h3⟩ := C92_rejected mgr hA hu huγ hγ a h
  have hn1 : (1 : ℝ) ≤ mgr.ndim := by exact_mod_cast (by omega : 1 ≤ mgr.ndim)
  have hγ1 : γ ≤ 1 / 10 := by nlinarith
  have hnd : m2.ndim = mgr.ndim := by
    have := congrArg Prod.fst h1
    unfold Arith.witness at this
    split_ifs at this
    · rw [← show _ = m2 from this]; rfl
    · rw [← show _ = m2 from this]; rfl
  set v := sliceVec mgr.ndim m2.wit m2.pos.1 m2.pos.2 with hvd
  refine ⟨m2, ep, h1, hnd, hep, v, ⟨⟨m2.pos.2 - 1, by omega⟩, ?_⟩, ?_⟩
  · rw [hvd]; unfold sliceVec
    rw [if_pos ⟨by simp only; omega, by simp only; omega⟩, hw]
  have hW := absQuad_nonneg T v
  have hd : |v ⬝ᵥ (symOf mgr.ndim a *ᵥ v) - v ⬝ᵥ (M *ᵥ v)| ≤ 21 / 10 * γ * absQuad T v := quad_diff_le (symOf_close hM hT ha) v
  have hdiag : ∀ i : Fin mgr.ndim, |a i i| ≤ 121 / 100 * |T i i| := fun i => by
    have h4 := ha i i
    have h5 := hMT i i
    have h6 : 21 / 10 * γ * |T i i| ≤ 21 / 100 * |T i i| := mul_le_mul_of_nonneg_right (by linarith) (abs_nonneg _)
    have h7 := abs_sub_abs_le_abs_sub (a i i) (M i i)
    linarith
  have hs : ∑ i : Fin mgr.ndim, |a i i| * v i ^ 2 ≤ 121 / 100 * absQuad T v := by
    refine le_trans ?_ (mul_le_mul_of_nonneg_left (diag_le_absQuad v) (by norm_num))
    rw [mul_sum]
    refine sum_le_sum fun i _ => ?_
    rw [← mul_assoc]
    exact mul_le_mul_of_nonneg_right (hdiag i) (sq_nonneg _)
  have hs' : ∑ i : Fin mgr.ndim, a i i * v i ^ 2 ≤ 121 / 100 * absQuad T v :=
    (sum_le_sum fun i _ => mul_le_mul_of_nonneg_right (le_abs_self _) (sq_nonneg _)).trans hs
  have h8 : γ * absQuad T v ≤ mgr.ndim * (γ * absQuad T v) := le_mul_of_one_le_left (by positivity) hn1
  have h9 : 0 ≤ mgr.ndim * (γ * absQuad T v) := by positivity
  have h10 : 0 ≤ mgr.ndim * (γ * ep) := by positivity
  refine ⟨?_, ?_, fun F => ?_⟩
  · have h7 : 7 * mgr.ndim * γ * ∑ i : Fin mgr.ndim, a i i * v i ^ 2 ≤ 7 * mgr.ndim * γ * (121 / 100 * absQuad T v) := mul_le_mul_of_nonneg_left hs' (by positivity)
    have h5 := (abs_le.mp hd).1
    nlinarith
  · have h7 : 9 * mgr.ndim * γ * (∑ i : Fin mgr.ndim, |a i i| * v i ^ 2 + ep) ≤ 9 * mgr.ndim * γ * (121 / 100 * absQuad T v + ep) := mul_le_mul_of_nonneg_left (by linarith) (by positivity)
    have h5 := abs_sub_le (v ⬝ᵥ (M *ᵥ v) + ep) (v ⬝ᵥ (symOf mgr.ndim a *ᵥ v) + ep) 0
    rw [sub_zero, sub_zero, add_sub_add_right_eq_sub, abs_sub_comm (v ⬝ᵥ (M *ᵥ v))] at h5
    nlinarith
  · exact Arith.symQuad_err hA hγ0 hγ1 m2 hp2 F

/-! ### The entries -/

/-- The matrix `|B| + Σ |x_k| |F_k|`. -/
def lmiAbs (matF : Fin q → Mat m) (matB : Mat m) (x : Vec q) : Mat m := fun i j => |matB i j| + ∑ k, |matF k i j| * |x k|

theorem lmiAbs_abs (matF : Fin q → Mat m) (matB : Mat m) (x : Vec q) (i j : Fin m) : |lmiAbs matF matB x i j| = |matB i j| + ∑ k, |matF k i j| * |x k| := by
  unfold lmiAbs; exact abs_of_nonneg (by positivity)

theorem absQuad_lmiAbs (matF : Fin q → Mat m) (matB : Mat m) (x : Vec q) (v : Vec m) : absQuad (lmiAbs matF matB x) v = absQuad matB v + ∑ k, |x k| * absQuad (matF k) v := by
  unfold absQuad
  simp only [lmiAbs_abs]
  have : ∀ i, ∑ j, |v i| * (|matB i j| + ∑ k, |matF k i j| * |x k|) * |v j| = ∑ j, |v i| * |matB i j| * |v j| + ∑ k, |x k| * ∑ j, |v i| * |matF k i j| * |v j| := fun i => by
    simp only [mul_sum]
    rw [sum_comm, ← sum_add_distrib]
    refine sum_congr rfl fun j _ => ?_
    rw [mul_add, add_mul, mul_sum, sum_mul]
    congr 1
    exact sum_congr rfl fun k _ => by ring
  simp only [this]
  rw [sum_add_distrib, sum_comm (f := fun i k => |x k| * ∑ j, |v i| * |matF k i j| * |v j|)]
  congr 1
  exact sum_congr rfl fun k _ => by rw [mul_sum]

theorem lmiAbs_isSymm {matF : Fin q → Mat m} {matB : Mat m} (hF : ∀ k, (matF k).IsSymm) (hB : matB.IsSymm) (x : Vec q) : (lmiAbs matF matB x).IsSymm := by
  ext i j
  rw [Matrix.transpose_apply]
  unfold lmiAbs
  rw [hB.apply]
  congr 1
  exact sum_congr rfl fun k _ => by rw [(hF k).apply]

theorem lmiMat_apply (matF : Fin q → Mat m) (matB : Mat m) (x : Vec q) (i j : Fin m) : lmiMat matF matB x i j = matB i j - (fun k => matF k i j) ⬝ᵥ x := by
  unfold lmiMat
  rw [Matrix.sub_apply, Matrix.sum_apply]
  congr 1
  exact sum_congr rfl fun k _ => by rw [Matrix.smul_apply, smul_eq_mul, mul_comm]

theorem lmiMat_le_abs (matF : Fin q → Mat m) (matB : Mat m) (x : Vec q) (i j : Fin m) : |lmiMat matF matB x i j| ≤ |lmiAbs matF matB x i j| := by
  rw [lmiMat_apply, lmiAbs_abs]
  refine (abs_sub _ _).trans ?_
  have := dot_abs_le (fun k => matF k i j) x
  linarith

theorem Arith.entry_err (hA : A.Accurate u γ m) (hu : 0 ≤ u) (huγ : u ≤ γ) (hγ : γ ≤ 1 / 10) (hq : (1 + u) ^ (q + 1) - 1 ≤ γ) (matF : Fin q → Mat m) (matB : Mat m) (x : Vec q) (i j : Fin m) :
    |A.sub (matB i j) (A.psum (fun k => matF k i j) x) - lmiMat matF matB x i j| ≤ 21 / 10 * γ * |lmiAbs matF matB x i j| := by
  have hγ0 := hu.trans huγ
  rw [lmiMat_apply, lmiAbs_abs]
  have h1 := Arith.psum_err hA hu hq (fun k => matF k i j) x
  have h2 := hA.rnd (matB i j - A.psum (fun k => matF k i j) x)
  have h3 := dot_abs_le (fun k => matF k i j) x
  have hS : 0 ≤ ∑ k, |matF k i j| * |x k| := by positivity
  set S := ∑ k, |matF k i j| * |x k|
  set s := (fun k => matF k i j) ⬝ᵥ x
  set t := A.psum (fun k => matF k i j) x
  set b := matB i j
  have h4 : |b - t| ≤ |b| + (1 + γ) * S := by
    have h5 := abs_sub b t
    have h6 := abs_sub_abs_le_abs_sub t s
    linarith
  have h5 : u * |b - t| ≤ γ * (|b| + (1 + γ) * S) := mul_le_mul huγ h4 (abs_nonneg _) hγ0
  have h6 := abs_sub_le (A.rnd (b - t)) (b - t) (b - s)
  rw [show b - t - (b - s) = -(t - s) by ring, abs_neg] at h6
  have h7 : γ * γ * S ≤ γ * (1 / 10) * S := by gcongr
  have h8 : 0 ≤ γ * |b| := by positivity
  change |A.rnd (b - t) - (b - s)| ≤ _
  nlinarith

/-- The bounds for a cut follow from the bounds for the quadratic forms. -/
theorem cut_bound {matF : Fin q → Mat m} {matB : Mat m} {x z g : Vec q} {ep c : ℝ} {v : Vec m} (hγ : 0 ≤ γ) (hm : 1 ≤ m)
    (h : |v ⬝ᵥ (lmiMat matF matB x *ᵥ v) + ep| ≤ 13 * m * γ * (absQuad (lmiAbs matF matB x) v + ep))
    (hg : ∀ k, |g k - v ⬝ᵥ (matF k *ᵥ v)| ≤ 21 / 10 * γ * absQuad (matF k) v) (hc : c = 13 * m * γ) :
    g ⬝ᵥ (z - x) + ep + v ⬝ᵥ (lmiMat matF matB z *ᵥ v) ≤ c * (absQuad matB v + ∑ k, (|x k| + |z k - x k|) * absQuad (matF k) v + ep) := by
  have hm1 : (1 : ℝ) ≤ m := by exact_mod_cast hm
  rw [quad_lmi, absQuad_lmiAbs] at h
  have h1 := (abs_le.mp h).2
  have e1 : g ⬝ᵥ (z - x) = (fun k => v ⬝ᵥ (matF k *ᵥ v)) ⬝ᵥ z - (fun k => v ⬝ᵥ (matF k *ᵥ v)) ⬝ᵥ x + ∑ k, (g k - v ⬝ᵥ (matF k *ᵥ v)) * (z k - x k) := by
    rw [← dotProduct_sub]
    simp only [dotProduct]
    rw [← sum_add_distrib]
    refine sum_congr rfl fun k _ => ?_
    rw [Pi.sub_apply]; ring
  have e2 : ∑ k, (g k - v ⬝ᵥ (matF k *ᵥ v)) * (z k - x k) ≤ 13 * m * γ * ∑ k, |z k - x k| * absQuad (matF k) v := by
    rw [mul_sum]
    refine sum_le_sum fun k _ => (le_abs_self _).trans ?_
    rw [abs_mul]
    have hW := absQuad_nonneg (matF k) v
    have h8 : γ * absQuad (matF k) v ≤ m * (γ * absQuad (matF k) v) := le_mul_of_one_le_left (by positivity) hm1
    calc |g k - v ⬝ᵥ (matF k *ᵥ v)| * |z k - x k| ≤ (13 * m * γ * absQuad (matF k) v) * |z k - x k| := by
          refine mul_le_mul_of_nonneg_right ((hg k).trans ?_) (abs_nonneg _)
          have : 0 ≤ γ * absQuad (matF k) v := by positivity
          nlinarith
      _ = _ := by ring
  have e3 : ∑ k, (|x k| + |z k - x k|) * absQuad (matF k) v = ∑ k, |x k| * absQuad (matF k) v + ∑ k, |z k - x k| * absQuad (matF k) v := by
    rw [← sum_add_distrib]; exact sum_congr rfl fun k _ => by ring
  rw [e1, e3, hc, quad_lmi]
  linarith

/-! ### The oracles -/

theorem Arith.exact_psum {n : ℕ} (x y : Vec n) : Arith.exact.psum x y = ∑ k, x k * y k := by
  have h := abs_seqDot_sub_le (rnd := fun x => x) le_rfl (by simp) x y
  simp only [add_zero, one_pow, sub_self, zero_mul, abs_nonpos_iff, sub_eq_zero] at h
  exact h

theorem Arith.exact_factor (mgr : LDLTMgr ℝ) (a : ℕ → ℕ → ℝ) : Arith.exact.factor mgr a = mgr.factor a := by
  unfold Arith.factor LDLTMgr.factor; simp only [Arith.exact_factorLoop]

/-- **C93.** In exact arithmetic these are the oracles of `Model/Lmi`. -/
theorem C93_exact (matF : Fin q → Mat m) (matB : Mat m) (mgr : LDLTMgr ℝ) (x : Vec q) : Arith.exact.lmiAssess matF matB mgr x = LMIOracle.assessFeas matF matB mgr x ∧
    Arith.exact.lmi0Assess matF mgr x = LMI0Oracle.assessFeas matF mgr x ∧ Arith.exact.lmiOldAssess matF matB mgr x = LMIOldOracle.assessFeas matF matB mgr x := by
  have e1 : Arith.exact.lmiElem matF matB x = LMIOracle.getElem matF matB x := by
    funext i j; unfold Arith.lmiElem LMIOracle.getElem; rw [Arith.exact_psum]; rfl
  have e2 : Arith.exact.lmi0Elem matF x = LMI0Oracle.getElem matF x := by
    funext i j; unfold Arith.lmi0Elem LMI0Oracle.getElem; rw [Arith.exact_psum]
  have e3 : (fun i j => Arith.exact.sub (matB i j) (Arith.exact.psum (fun k => matF k i j) x) : Mat m) = matB - ∑ k, x k • matF k := by
    funext i j
    rw [Arith.exact_psum, Matrix.sub_apply, Matrix.sum_apply]
    refine congrArg (fun t => matB i j - t) ?_
    exact sum_congr rfl fun k _ => by rw [Matrix.smul_apply, smul_eq_mul, mul_comm]
  refine ⟨?_, ?_, ?_⟩
  · unfold Arith.lmiAssess LMIOracle.assessFeas
    simp only [e1, Arith.exact_factor, Arith.exact_witness, Arith.exact_symQuad]
    rcases (mgr.factor (LMIOracle.getElem matF matB x)).1.witness with ⟨m2, f | ep⟩ <;> rfl
  · unfold Arith.lmi0Assess LMI0Oracle.assessFeas
    simp only [e2, Arith.exact_factor, Arith.exact_witness, Arith.exact_symQuad]
    rcases (mgr.factor (LMI0Oracle.getElem matF x)).1.witness with ⟨m2, f | ep⟩ <;> rfl
  · unfold Arith.lmiOldAssess LMIOldOracle.assessFeas LDLTMgr.factorize
    simp only [e3, Arith.exact_factor, Arith.exact_witness, Arith.exact_symQuad]
    rcases (mgr.factor (toArr2 (matB - ∑ k, x k • matF k))).1.witness with ⟨m2, f | ep⟩ <;> rfl

section oracles

variable (matF : Fin q → Mat m) (matB : Mat m) (mgr : LDLTMgr ℝ) (x : Vec q)

/-- What a call of an LMI oracle for `B - Σ x_k F_k ⪰ 0` does in floating point. -/
structure LmiAnswer (γ : ℝ) (r : LDLTMgr ℝ × Except Fault (Option (Vec q × ℝ))) : Prop where
  /-- No exception; the manager can be used again. -/
  runs : r.1.ndim = m ∧ ∃ o, r.2 = .ok o
  /-- A point that is accepted satisfies the inequality up to `7 m γ (|B| + Σ |x_k| |F_k|)`. -/
  accepted : r.2 = .ok none → ∀ v, -(7 * m * γ * (absQuad matB v + ∑ k, |x k| * absQuad (matF k) v)) ≤ v ⬝ᵥ (lmiMat matF matB x *ᵥ v)
  /-- A point that is rejected violates it up to such a tolerance, and the cut is valid up to such a tolerance for every feasible point `z`, where `v ⬝ (B - Σ z_k F_k) v ≥ 0`. -/
  rejected : ∀ g ep, r.2 = .ok (some (g, ep)) → 0 ≤ ep ∧ ∃ v : Vec m, (∃ i, v i = 1) ∧
    v ⬝ᵥ (lmiMat matF matB x *ᵥ v) ≤ 11 * m * γ * (absQuad matB v + ∑ k, |x k| * absQuad (matF k) v) ∧
    (∀ k, |g k - v ⬝ᵥ (matF k *ᵥ v)| ≤ 21 / 10 * γ * absQuad (matF k) v) ∧
    ∀ z, g ⬝ᵥ (z - x) + ep + v ⬝ᵥ (lmiMat matF matB z *ᵥ v) ≤ 13 * m * γ * (absQuad matB v + ∑ k, (|x k| + |z k - x k|) * absQuad (matF k) v + ep)

end oracles

/-- **C93.** `LMIOracle.assess_feas` in floating point. -/
theorem C93_lmi {matF : Fin q → Mat m} {matB : Mat m} (hF : ∀ k, (matF k).IsSymm) (hB : matB.IsSymm) (mgr : LDLTMgr ℝ) (hm : mgr.ndim = m) (hA : A.Accurate u γ m) (hu : 0 ≤ u) (huγ : u ≤ γ)
    (hγ : 10 * m * γ ≤ 1) (hq : (1 + u) ^ (q + 1) - 1 ≤ γ) (x : Vec q) : LmiAnswer matF matB x γ (A.lmiAssess matF matB mgr x) := by
  subst hm
  have hγ0 := hu.trans huγ
  have ha : ∀ i j : Fin mgr.ndim, |A.lmiElem matF matB x i j - lmiMat matF matB x i j| ≤ 21 / 10 * γ * |lmiAbs matF matB x i j| := fun i j => by
    have hn1 : (1 : ℝ) ≤ mgr.ndim := by exact_mod_cast (by have := i.2; omega : 1 ≤ mgr.ndim)
    have := Arith.entry_err hA hu huγ (by nlinarith) hq matF matB x i j
    unfold Arith.lmiElem
    simp only [toArr2_apply]
    exact this
  have hM := lmiMat_isSymm hF hB x
  have hT := lmiAbs_isSymm hF hB x
  unfold Arith.lmiAssess
  simp only
  rcases hb : (A.factor mgr (A.lmiElem matF matB x)).2.1 with _ | _
  · obtain ⟨m2, ep, h1, h2, h3, v, h4, h5, h6, h7⟩ := close_rejected mgr hA hu huγ hγ hM hT (lmiMat_le_abs matF matB x) ha hb
    have hm1 : 1 ≤ mgr.ndim := by obtain ⟨i, -⟩ := h4; have := i.2; omega
    rw [h1]
    refine ⟨⟨h2, _, rfl⟩, fun h => by simp at h, fun g ep' h => ?_⟩
    simp only [Bool.false_eq_true, if_false, Except.ok.injEq, Option.some.injEq, Prod.mk.injEq] at h
    obtain ⟨rfl, rfl⟩ := h
    rw [absQuad_lmiAbs] at h5
    exact ⟨h3, v, h4, h5, fun k => h7 (matF k), fun z => cut_bound hγ0 hm1 h6 (fun k => h7 (matF k)) rfl⟩
  · refine ⟨⟨rfl, _, rfl⟩, fun _ v => ?_, fun g ep h => by simp at h⟩
    rw [← absQuad_lmiAbs]
    exact close_accepted mgr hA hu huγ hγ hM hT (lmiMat_le_abs matF matB x) ha hb v

/-- **C93.** `LMIOldOracle.assess_feas` in floating point. -/
theorem C93_lmi_old {matF : Fin q → Mat m} {matB : Mat m} (hF : ∀ k, (matF k).IsSymm) (hB : matB.IsSymm) (mgr : LDLTMgr ℝ) (hm : mgr.ndim = m) (hA : A.Accurate u γ m) (hu : 0 ≤ u) (huγ : u ≤ γ)
    (hγ : 10 * m * γ ≤ 1) (hq : (1 + u) ^ (q + 1) - 1 ≤ γ) (x : Vec q) : LmiAnswer matF matB x γ (A.lmiOldAssess matF matB mgr x) := by
  subst hm
  have hγ0 := hu.trans huγ
  set M : Mat mgr.ndim := fun i j => A.sub (matB i j) (A.psum (fun k => matF k i j) x) with hMd
  have ha : ∀ i j : Fin mgr.ndim, |toArr2 M i j - lmiMat matF matB x i j| ≤ 21 / 10 * γ * |lmiAbs matF matB x i j| := fun i j => by
    have hn1 : (1 : ℝ) ≤ mgr.ndim := by exact_mod_cast (by have := i.2; omega : 1 ≤ mgr.ndim)
    have := Arith.entry_err hA hu huγ (by nlinarith) hq matF matB x i j
    rw [toArr2_apply]
    exact this
  have hM := lmiMat_isSymm hF hB x
  have hT := lmiAbs_isSymm hF hB x
  unfold Arith.lmiOldAssess
  simp only
  rcases hb : (A.factor mgr (toArr2 M)).2.1 with _ | _
  · obtain ⟨m2, ep, h1, h2, h3, v, h4, h5, h6, h7⟩ := close_rejected mgr hA hu huγ hγ hM hT (lmiMat_le_abs matF matB x) ha hb
    have hm1 : 1 ≤ mgr.ndim := by obtain ⟨i, -⟩ := h4; have := i.2; omega
    rw [← hMd, h1]
    refine ⟨⟨h2, _, rfl⟩, fun h => by simp at h, fun g ep' h => ?_⟩
    simp only [if_true, Except.ok.injEq, Option.some.injEq, Prod.mk.injEq] at h
    obtain ⟨rfl, rfl⟩ := h
    rw [absQuad_lmiAbs] at h5
    exact ⟨h3, v, h4, h5, fun k => h7 (matF k), fun z => cut_bound hγ0 hm1 h6 (fun k => h7 (matF k)) rfl⟩
  · rw [← hMd]
    refine ⟨⟨rfl, _, rfl⟩, fun _ v => ?_, fun g ep h => by simp at h⟩
    rw [← absQuad_lmiAbs]
    exact close_accepted mgr hA hu huγ hγ hM hT (lmiMat_le_abs matF matB x) ha hb v

/-- **C93.** `LMI0Oracle.assess_feas` in floating point: the same bounds for `Σ x_k F_k ⪰ 0`, which is the inequality `0 - Σ x_k (-F_k) ⪰ 0`. -/
theorem C93_lmi0 {matF : Fin q → Mat m} (hF : ∀ k, (matF k).IsSymm) (mgr : LDLTMgr ℝ) (hm : mgr.ndim = m) (hA : A.Accurate u γ m) (hu : 0 ≤ u) (huγ : u ≤ γ)
    (hγ : 10 * m * γ ≤ 1) (hq : (1 + u) ^ (q + 1) - 1 ≤ γ) (x : Vec q) : LmiAnswer (fun k => -matF k) 0 x γ (A.lmi0Assess matF mgr x) := by
  subst hm
  have hγ0 := hu.trans huγ
  have ha : ∀ i j : Fin mgr.ndim, |A.lmi0Elem matF x i j - lmiMat (fun k => -matF k) 0 x i j| ≤ 21 / 10 * γ * |lmiAbs (fun k => -matF k) 0 x i j| := fun i j => by
    rw [lmiMat_apply, lmiAbs_abs]
    unfold Arith.lmi0Elem
    simp only [toArr2_apply]
    have h := Arith.psum_err hA hu hq (fun k => matF k i j) x
    have e : (0 : Mat mgr.ndim) i j - (fun k => (-matF k) i j) ⬝ᵥ x = (fun k => matF k i j) ⬝ᵥ x := by
      rw [show (fun k => (-matF k) i j) = -(fun k => matF k i j) from rfl, neg_dotProduct]; simp
    rw [e]
    refine h.trans ?_
    have hS : 0 ≤ γ * ∑ k, |matF k i j| * |x k| := by positivity
    simp only [Matrix.neg_apply, abs_neg, Matrix.zero_apply, abs_zero, zero_add]
    linarith
  have hM := lmiMat_isSymm (matB := (0 : Mat mgr.ndim)) (fun k => (hF k).neg) Matrix.isSymm_zero x
  have hT := lmiAbs_isSymm (matB := (0 : Mat mgr.ndim)) (fun k => (hF k).neg) Matrix.isSymm_zero x
  unfold Arith.lmi0Assess
  simp only
  rcases hb : (A.factor mgr (A.lmi0Elem matF x)).2.1 with _ | _
  · obtain ⟨m2, ep, h1, h2, h3, v, h4, h5, h6, h7⟩ := close_rejected mgr hA hu huγ hγ hM hT (lmiMat_le_abs _ _ x) ha hb
    have hm1 : 1 ≤ mgr.ndim := by obtain ⟨i, -⟩ := h4; have := i.2; omega
    have h8 : ∀ k, |-A.symQuad m2 (toArr2 (matF k)) - v ⬝ᵥ ((-matF k) *ᵥ v)| ≤ 21 / 10 * γ * absQuad (-matF k) v := fun k => by
      have := h7 (matF k)
      rw [neg_mulVec, dotProduct_neg, neg_sub_neg, abs_sub_comm]
      have e : absQuad (-matF k) v = absQuad (matF k) v := by unfold absQuad; simp
      rw [e]; exact this
    rw [h1]
    refine ⟨⟨h2, _, rfl⟩, fun h => by simp at h, fun g ep' h => ?_⟩
    simp only [if_true, Except.ok.injEq, Option.some.injEq, Prod.mk.injEq] at h
    obtain ⟨rfl, rfl⟩ := h
    rw [absQuad_lmiAbs] at h5
    exact ⟨h3, v, h4, h5, h8, fun z => cut_bound hγ0 hm1 h6 h8 rfl⟩
  · refine ⟨⟨rfl, _, rfl⟩, fun _ v => ?_, fun g ep h => by simp at h⟩
    rw [← absQuad_lmiAbs]
    exact close_accepted mgr hA hu huγ hγ hM hT (lmiMat_le_abs _ _ x) ha hb v

theorem Arith.factor_one_zero (A : Arith) {a : ℕ → ℕ → ℝ} (h : a 0 0 = 0) :
    A.factor (LDLTMgr.init 1) a = ({ pos := (0, 1), wit := fun _ => 0, ndim := 1, storage := set2 (fun _ _ => 0) 0 0 0 }, false, [(0, 0)]) := by
  unfold Arith.factor LDLTMgr.init
  simp [Arith.factorLoop, Arith.row, forRange, forUp, h, LDLTMgr.isSpd]

/-- **C93.** In double precision the cut of `LMIOracle` may remove feasible points, so a tolerance is needed: the constraint `1 - (1 + 2⁻²⁸) x ≥ 0` at the feasible point `x = 1 - 2⁻²⁸`. -/
theorem C93_cut_not_valid : ∃ (matF : Fin 1 → Mat 1) (matB : Mat 1) (x z g : Vec 1) (ep : ℝ), QuadPos (lmiMat matF matB x) ∧
    ((Arith.ieee 53).lmiAssess matF matB (LMIOracle.init matB) x).2 = .ok (some (g, ep)) ∧ QuadPos (lmiMat matF matB z) ∧ 0 < g ⬝ᵥ (z - x) + ep := by
  have r1 : roundBits 53 ((1 + 1 / 2 ^ 28) * (1 - 1 / 2 ^ 28)) = 1 := by
    have := roundBits_eq (p := 53) (x := (1 + 1 / 2 ^ 28) * (1 - 1 / 2 ^ 28)) (e := -1) (k := 2 ^ 53) (by norm_num) (by norm_num) (by norm_num [abs_of_neg])
    rw [this]; norm_num
  have r2 : roundBits 53 1 = 1 := by have := rb 1 0 (by norm_num); norm_num at this; exact this
  have r3 : roundBits 53 (1 + 1 / 2 ^ 28) = 1 + 1 / 2 ^ 28 := by
    have := rb (2 ^ 28 + 1) 28 (by norm_num)
    norm_num at this ⊢; exact this
  have hel : (Arith.ieee 53).lmiElem (fun _ => !![1 + 1 / 2 ^ 28]) !![1] ![1 - 1 / 2 ^ 28] 0 0 = 0 := by
    unfold Arith.lmiElem Arith.psum toArr2
    simp only [Fin.foldl_succ, Fin.foldl_zero]
    change roundBits 53 (1 - roundBits 53 (0 + roundBits 53 ((1 + 1 / 2 ^ 28) * (1 - 1 / 2 ^ 28)))) = 0
    rw [r1, zero_add, r2, sub_self, roundBits_zero]
  have hq : ∀ y : ℝ, (1 + 1 / 2 ^ 28) * y < 1 → QuadPos (lmiMat (fun _ : Fin 1 => (!![1 + 1 / 2 ^ 28] : Mat 1)) !![1] ![y]) := fun y hy v hv => by
    have hv0 : v 0 ≠ 0 := fun h => hv (funext fun i => by rw [Subsingleton.elim i 0]; exact h)
    rw [quad_lmi]
    have : 0 < v 0 ^ 2 * (1 - (1 + 1 / 2 ^ 28) * y) := by
      have : 0 < v 0 ^ 2 := by positivity
      exact mul_pos this (by linarith)
    simp [dotProduct, mulVec]
    norm_num at this ⊢
    nlinarith
  refine ⟨fun _ => !![1 + 1 / 2 ^ 28], !![1], ![1 - 1 / 2 ^ 28], ![1 - 1 / 2 ^ 28 + 1 / 2 ^ 57], ![1 + 1 / 2 ^ 28], 0, hq _ (by norm_num), ?_, hq _ (by norm_num), ?_⟩
  · unfold Arith.lmiAssess
    rw [show LMIOracle.init (!![1] : Mat 1) = LDLTMgr.init 1 from rfl, Arith.factor_one_zero _ hel]
    simp only [Bool.false_eq_true, if_false]
    have hw : (Arith.ieee 53).witness { pos := (0, 1), wit := fun _ => 0, ndim := 1, storage := set2 (fun _ _ => 0) 0 0 0 } =
        ({ pos := (0, 1), wit := set1 (fun _ => 0) 0 1, ndim := 1, storage := set2 (fun _ _ => 0) 0 0 0 }, .ok 0) := by
      unfold Arith.witness LDLTMgr.isSpd
      simp [forDown, set2]
    rw [hw]
    simp only [Except.ok.injEq, Option.some.injEq, Prod.mk.injEq, and_true]
    funext k
    unfold Arith.symQuad Arith.slice
    change roundBits 53 (0 + roundBits 53 (1 * roundBits 53 (0 + roundBits 53 ((1 + 1 / 2 ^ 28) * 1)))) = _
    simp only [mul_one, zero_add, one_mul, r3]
    rw [Subsingleton.elim k 0]; rfl
  · simp [dotProduct]; norm_num

/-- The hypotheses of C93 hold for the LMI `2 I - x₀ I - x₁ [[0, 1], [1, 0]] ⪰ 0` in double precision; `x = (3, 0)` is rejected there. -/
example : (∀ x, LmiAnswer ![1, !![0, 1; 1, 0]] ((2 : ℝ) • (1 : Mat 2)) x ((1 + 2⁻¹ ^ 53) ^ (2 + 1) - 1) ((Arith.ieee 53).lmiAssess ![1, !![0, 1; 1, 0]] ((2 : ℝ) • (1 : Mat 2)) (LDLTMgr.init 2) x)) ∧
    ((Arith.ieee 53).lmiAssess ![1, !![0, 1; 1, 0]] ((2 : ℝ) • (1 : Mat 2)) (LDLTMgr.init 2) ![3, 0]).2 ≠ .ok none := by
  have h := fun x => C93_lmi (matF := ![1, !![0, 1; 1, 0]]) (matB := (2 : ℝ) • (1 : Mat 2)) (fun k => by
      fin_cases k
      · exact isSymm_one
      · ext i j; fin_cases i <;> fin_cases j <;> rfl) (isSymm_one.smul _) (LDLTMgr.init 2) rfl (Arith.ieee_accurate 53 2) (by positivity) (by norm_num) (by norm_num) le_rfl x
  refine ⟨h, fun hn => ?_⟩
  have h2 := (h ![3, 0]).accepted hn ![1, 0]
  rw [quad_lmi] at h2
  simp [absQuad, dotProduct, mulVec, Fin.sum_univ_two, Matrix.smul_apply] at h2
  norm_num at h2

end Ellalgo
