import Verif.Model.RoundedPower2
import Verif.Model.RoundedPower4
import Verif.Lemmas.Rounding

/-!
# C135: scaling by a power of two changes no bit of a power iteration
-/

namespace Ellalgo

open Finset Matrix Spec

variable {n : ℕ}

theorem binExp_zpow_mul (e : ℤ) {x : ℝ} (hx : x ≠ 0) : binExp (2 ^ e * x) = e + binExp x := by
  have hp : (0 : ℝ) < 2 ^ e := zpow_pos two_pos e
  have hx0 : 0 < |x| := abs_pos.mpr hx
  have h1 : (2 : ℝ) ^ binExp x ≤ |x| := by exact_mod_cast Int.zpow_log_le_self (b := 2) (by norm_num) hx0
  have h2 : |x| < (2 : ℝ) ^ (binExp x + 1) := by exact_mod_cast Int.lt_zpow_succ_log_self (b := 2) (by norm_num) |x|
  have e1 : binExp (2 ^ e * x) = binExp (2 ^ e * |x|) := by
    unfold binExp
    rw [abs_mul, abs_mul, abs_abs]
  rw [e1]
  refine binExp_eq ?_ ?_
  · rw [zpow_add₀ two_ne_zero]; exact mul_le_mul_of_nonneg_left h1 hp.le
  · rw [add_assoc, zpow_add₀ two_ne_zero]; exact mul_lt_mul_of_pos_left h2 hp

theorem roundBits_zpow_mul (p : ℕ) (e : ℤ) (x : ℝ) : roundBits p (2 ^ e * x) = 2 ^ e * roundBits p x := by
  have h2 : (2 : ℝ) ≠ 0 := two_ne_zero
  have hp : (2 : ℝ) ^ e ≠ 0 := zpow_ne_zero _ h2
  unfold roundBits
  by_cases hx : x = 0
  · rw [if_pos hx, if_pos (by rw [hx, mul_zero]), mul_zero]
  · rw [if_neg hx, if_neg (mul_ne_zero hp hx), binExp_zpow_mul e hx]
    have e1 : (2 : ℝ) ^ e * x * 2 ^ ((p : ℤ) - 1 - (e + binExp x)) = x * 2 ^ ((p : ℤ) - 1 - binExp x) := by
      rw [mul_comm ((2 : ℝ) ^ e) x, mul_assoc, ← zpow_add₀ h2]
      congr 2
      ring
    have e2 : (2 : ℝ) ^ (e + binExp x + 1 - p) = 2 ^ e * 2 ^ (binExp x + 1 - p) := by
      rw [← zpow_add₀ h2]
      congr 1
      ring
    rw [e1, e2]
    ring

theorem seqDot_scale {rnd : ℝ → ℝ} {c : ℝ} (hr : ∀ z, rnd (c * z) = c * rnd z) : ∀ {n : ℕ} (x y z : Vec n), (∀ i, z i * y i = c * (x i * y i)) → seqDot rnd z y = c * seqDot rnd x y
  | 0, x, y, z, _ => by simp [seqDot, Fin.foldl_zero]
  | n + 1, x, y, z, h => by
    have ih := seqDot_scale hr (fun i : Fin n => x i.castSucc) (fun i => y i.castSucc) (fun i => z i.castSucc) fun i => h i.castSucc
    unfold seqDot at *
    rw [Fin.foldl_succ_last, Fin.foldl_succ_last, ih, h, hr, ← mul_add, hr]

theorem seqDot_comm (rnd : ℝ → ℝ) (x y : Vec n) : seqDot rnd x y = seqDot rnd y x := by
  unfold seqDot
  congr 1
  funext s i
  rw [mul_comm]

/-- An arithmetic in which multiplication by `c > 0` commutes with every operation. -/
structure Homog (A : Arith) (c : ℝ) : Prop where
  pos : 0 < c
  rnd : ∀ z, A.rnd (c * z) = c * A.rnd z
  dotl : ∀ {n : ℕ} (x y : Vec n), A.dot (c • x) y = c * A.dot x y
  dotr : ∀ {n : ℕ} (x y : Vec n), A.dot x (c • y) = c * A.dot x y
  mv : ∀ {n : ℕ} (M : Mat n) (x : Vec n), A.mv (c • M) x = c • A.mv M x

theorem homog_exact {c : ℝ} (hc : 0 < c) : Homog Arith.exact c where
  pos := hc
  rnd _ := rfl
  dotl x y := by show (c • x) ⬝ᵥ y = c * (x ⬝ᵥ y); rw [smul_dotProduct, smul_eq_mul]
  dotr x y := by show x ⬝ᵥ (c • y) = c * (x ⬝ᵥ y); rw [dotProduct_smul, smul_eq_mul]
  mv M x := by show (c • M) *ᵥ x = c • (M *ᵥ x); rw [smul_mulVec]

theorem homog_ieee (p : ℕ) (e : ℤ) : Homog (Arith.ieee p) (2 ^ e) where
  pos := zpow_pos two_pos e
  rnd := roundBits_zpow_mul p e
  dotl x y := seqDot_scale (roundBits_zpow_mul p e) x y _ fun i => by rw [Pi.smul_apply, smul_eq_mul, mul_assoc]
  dotr x y := by
    show seqDot _ x _ = _ * seqDot _ x y
    rw [seqDot_comm, seqDot_comm _ x y]
    exact seqDot_scale (roundBits_zpow_mul p e) y x _ fun i => by rw [Pi.smul_apply, smul_eq_mul, mul_assoc]
  mv M x := by
    funext i
    exact seqDot_scale (roundBits_zpow_mul p e) (M i) x _ fun j => by
      show (2 ^ e * M i j) * x j = _
      rw [mul_assoc]

/-- The result with the value multiplied by `c`. -/
def scaleLd (c : ℝ) (r : Except Fault (PowerResult n)) : Except Fault (PowerResult n) := r.map fun r => { r with ld := c * r.ld }

section
variable {A : Arith} {c : ℝ} (h : Homog A c)
include h

theorem Homog.unit (y : Vec n) : A.arrUnit (c • y) = A.arrUnit y := by
  have hc := h.pos
  have e : A.rnd (Real.sqrt (A.dot (c • y) (c • y))) = c * A.rnd (Real.sqrt (A.dot y y)) := by
    rw [h.dotl, h.dotr, ← mul_assoc, Real.sqrt_mul (mul_pos hc hc).le, Real.sqrt_mul_self hc.le, h.rnd]
  unfold Arith.arrUnit
  simp only [e, mul_eq_zero, hc.ne', false_or, Arith.div, Pi.smul_apply, smul_eq_mul, mul_div_mul_left _ _ hc.ne']

theorem Homog.l1 (y : Vec n) : A.normL1 (c • y) = c * A.normL1 y := by
  unfold Arith.normL1
  rw [← h.dotl]
  congr 1
  funext i
  rw [Pi.smul_apply, Pi.smul_apply, smul_eq_mul, smul_eq_mul, abs_mul, abs_of_pos h.pos]

theorem Homog.divL1 (y : Vec n) : A.arrDiv (c • y) (A.normL1 (c • y)) = A.arrDiv y (A.normL1 y) := by
  have hc := h.pos
  rw [h.l1]
  unfold Arith.arrDiv
  simp only [mul_eq_zero, hc.ne', false_or, Arith.div, Pi.smul_apply, smul_eq_mul, mul_div_mul_left _ _ hc.ne']

theorem Homog.loop1 (M : Mat n) (o : PowerOptions) (arg : Vec n) : ∀ (left niter : ℕ) (x : Vec n), A.powerLoop (c • M) o arg left niter x = scaleLd c (A.powerLoop M o arg left niter x)
  | 0, _, x => by
    rw [Arith.powerLoop, Arith.powerLoop, h.mv, h.dotr]
    rfl
  | left + 1, niter, x1 => by
    rw [Arith.powerLoop, Arith.powerLoop, h.mv, h.unit]
    rcases A.arrUnit (A.mv M x1) with f | x
    · rfl
    simp only [h.mv, h.dotr]
    split_ifs
    · rfl
    · exact Homog.loop1 M o arg left (niter + 1) x

theorem Homog.loop4 (M : Mat n) (o : PowerOptions) (arg : Vec n) : ∀ (left niter : ℕ) (x : Vec n), A.powerLoop4 (c • M) o arg left niter x = scaleLd c (A.powerLoop4 M o arg left niter x)
  | 0, _, x => by
    rw [Arith.powerLoop4, Arith.powerLoop4]
    rcases A.arrUnit x with f | y
    · rfl
    simp only [h.mv, h.dotr]
    rfl
  | left + 1, niter, x1 => by
    rw [Arith.powerLoop4, Arith.powerLoop4, h.mv, h.divL1]
    rcases A.arrDiv (A.mv M x1) (A.normL1 (A.mv M x1)) with f | x
    · rfl
    simp only [h.mv, h.dotr]
    split_ifs
    · rcases A.arrUnit x with f | y <;> rfl
    · exact Homog.loop4 M o arg left (niter + 1) x

theorem Homog.loop2 (M : Mat n) (N : ℕ) (tol : ℝ) : ∀ (left niter : ℕ) (x new : Vec n) (ld : ℝ), A.powerLoop2 (c • M) ⟨N, c * tol⟩ left niter x (c • new) (c * ld) = scaleLd c (A.powerLoop2 M ⟨N, tol⟩ left niter x new ld)
  | 0, _, _, _, _ => rfl
  | left + 1, niter, _, new, ld => by
    rw [Arith.powerLoop2, Arith.powerLoop2, h.unit]
    rcases A.arrUnit new with f | x
    · rfl
    have e : |A.sub (c * ld) (c * A.dot x (A.mv M x))| = c * |A.sub ld (A.dot x (A.mv M x))| := by
      unfold Arith.sub
      rw [← mul_sub, h.rnd, abs_mul, abs_of_pos h.pos]
    simp only [h.mv, h.dotr, e, mul_le_mul_iff_right₀ h.pos]
    split_ifs
    · rfl
    · exact Homog.loop2 M N tol left (niter + 1) x _ _

/-- **C135.** In an arithmetic that commutes with multiplication by `c > 0`: a start vector multiplied by `c` gives the same run; a matrix multiplied by `c` gives the same vector, the same number of passes and the value multiplied by `c`, for
`power_iteration` and `power_iteration4` with the same options, for `power_iteration2` with the tolerance multiplied by `c`. Exceptions are the same too. -/
theorem C135_scale (M : Mat n) (x : Vec n) (o : PowerOptions) :
    A.powerIteration M (c • x) o = A.powerIteration M x o ∧ A.powerIteration2 M (c • x) o = A.powerIteration2 M x o ∧ A.powerIteration4 M (c • x) o = A.powerIteration4 M x o ∧
    A.powerIteration (c • M) x o = (A.powerIteration M x o).map (fun r => { r with ld := c * r.ld }) ∧ A.powerIteration2 (c • M) x ⟨o.maxIters, c * o.tolerance⟩ = (A.powerIteration2 M x o).map (fun r => { r with ld := c * r.ld }) ∧
    A.powerIteration4 (c • M) x o = (A.powerIteration4 M x o).map (fun r => { r with ld := c * r.ld }) := by
  refine ⟨?_, ?_, ?_, ?_, ?_, ?_⟩
  · rw [Arith.powerIteration, Arith.powerIteration, h.unit]
  · rw [Arith.powerIteration2, Arith.powerIteration2, h.unit]
  · rw [Arith.powerIteration4, Arith.powerIteration4, h.divL1]
  · rw [Arith.powerIteration, Arith.powerIteration]
    rcases A.arrUnit x with f | y
    · rfl
    · exact h.loop1 M o y o.maxIters 0 y
  · rw [Arith.powerIteration2, Arith.powerIteration2]
    rcases A.arrUnit x with f | y
    · rfl
    · simp only [h.mv, h.dotr]
      exact h.loop2 M o.maxIters o.tolerance o.maxIters 0 y _ _
  · rw [Arith.powerIteration4, Arith.powerIteration4]
    rcases A.arrDiv x (A.normL1 x) with f | y
    · rfl
    · exact h.loop4 M o y o.maxIters 0 y

end

/-- **C135** for machine numbers with `p` bits and `c = 2^e`: not one bit changes. -/
theorem C135_bits (p : ℕ) (e : ℤ) (M : Mat n) (x : Vec n) (o : PowerOptions) :
    (Arith.ieee p).powerIteration M ((2 : ℝ) ^ e • x) o = (Arith.ieee p).powerIteration M x o ∧ (Arith.ieee p).powerIteration2 M ((2 : ℝ) ^ e • x) o = (Arith.ieee p).powerIteration2 M x o ∧ (Arith.ieee p).powerIteration4 M ((2 : ℝ) ^ e • x) o = (Arith.ieee p).powerIteration4 M x o ∧
    (Arith.ieee p).powerIteration ((2 : ℝ) ^ e • M) x o = ((Arith.ieee p).powerIteration M x o).map (fun r => { r with ld := 2 ^ e * r.ld }) ∧
    (Arith.ieee p).powerIteration2 ((2 : ℝ) ^ e • M) x ⟨o.maxIters, 2 ^ e * o.tolerance⟩ = ((Arith.ieee p).powerIteration2 M x o).map (fun r => { r with ld := 2 ^ e * r.ld }) ∧
    (Arith.ieee p).powerIteration4 ((2 : ℝ) ^ e • M) x o = ((Arith.ieee p).powerIteration4 M x o).map (fun r => { r with ld := 2 ^ e * r.ld }) :=
  C135_scale (homog_ieee p e) M x o

/-- **C135** in exact arithmetic, for every `c > 0`. -/
theorem C135_exact {c : ℝ} (hc : 0 < c) (M : Mat n) (x : Vec n) (o : PowerOptions) :
    powerIteration M (c • x) o = powerIteration M x o ∧ powerIteration2 M (c • x) o = powerIteration2 M x o ∧ powerIteration4 M (c • x) o = powerIteration4 M x o ∧
    powerIteration (c • M) x o = (powerIteration M x o).map (fun r => { r with ld := c * r.ld }) ∧ powerIteration2 (c • M) x ⟨o.maxIters, c * o.tolerance⟩ = (powerIteration2 M x o).map (fun r => { r with ld := c * r.ld }) ∧
    powerIteration4 (c • M) x o = (powerIteration4 M x o).map (fun r => { r with ld := c * r.ld }) := by
  have h := C135_scale (homog_exact hc) M x o
  simpa only [Arith.exact_powerIteration, Arith.exact_powerIteration2, Arith.exact_powerIteration4] using h

/-- `c = 1024` in double precision. -/
example : Homog (Arith.ieee 53) 1024 := by
  have := homog_ieee 53 10
  norm_num at this
  exact this

end Ellalgo
