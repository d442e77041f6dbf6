import Verif.Props.Rounded
import Verif.Lemmas.RoundedParams
import Verif.Lemmas.CalcCore
import Verif.Spec.Cut
import Mathlib.LinearAlgebra.Matrix.Notation
import Mathlib.Algebra.Order.Star.Real

/-! # C91: containment in floating point -/

namespace Ellalgo

open Matrix

/-- The rounded value of 1/3 and of 4/3. -/
theorem roundBits_third {p : ℕ} (hp : 2 ≤ p) : ∃ k : ℤ, 0 < k ∧ (k : ℝ) < 2 ^ p ∧ 2 * (k : ℝ) ≤ 2 * 2 ^ p ∧ roundBits p (1 / 3) = k * 2 ^ (-1 - (p : ℤ)) ∧
    roundBits p (4 / 3) = k * 2 ^ (1 - (p : ℤ)) := by
  have h2 : (2 : ℝ) ≠ 0 := two_ne_zero
  have hpow : (4 : ℝ) ≤ 2 ^ p := by
    calc (4 : ℝ) = 2 ^ 2 := by norm_num
      _ ≤ 2 ^ p := pow_le_pow_right₀ (by norm_num) hp
  have e1 : binExp (1 / 3) = -2 := binExp_eq (by norm_num) (by norm_num)
  have e2 : binExp (4 / 3) = 0 := binExp_eq (by norm_num) (by norm_num)
  have a1 : (1 / 3 : ℝ) * 2 ^ ((p : ℤ) - 1 - -2) = 2 * 2 ^ p / 3 := by
    rw [show (p : ℤ) - 1 - -2 = p + 1 by ring, zpow_add₀ h2, zpow_natCast, zpow_one]; ring
  have a2 : (4 / 3 : ℝ) * 2 ^ ((p : ℤ) - 1 - 0) = 2 * 2 ^ p / 3 := by
    rw [show (p : ℤ) - 1 - 0 = p + -1 by ring, zpow_add₀ h2, zpow_natCast]; norm_num; ring
  have hr := abs_le.mp (abs_roundHalfEven_sub_le (2 * 2 ^ p / 3))
  refine ⟨roundHalfEven (2 * 2 ^ p / 3), ?_, ?_, ?_, ?_, ?_⟩
  · have : (0 : ℝ) < roundHalfEven (2 * 2 ^ p / 3) := by linarith
    exact_mod_cast this
  · linarith
  · linarith
  · unfold roundBits
    rw [if_neg (by norm_num), e1, a1]
    congr 2
  · unfold roundBits
    rw [if_neg (by norm_num), e2, a2]
    congr 2

/-- The numbers of the counterexample are computed without further rounding. -/
theorem third_facts {p : ℕ} (hp : 2 ≤ p) : ∃ c : ℝ, 0 < c ∧ c < 1 / 2 ∧ c ≠ 1 / 3 ∧ roundBits p (1 / 3) = c ∧ roundBits p (4 / 3) = 4 * c ∧ roundBits p c = c ∧ roundBits p (2 * c) = 2 * c ∧
    roundBits p (4 * c) = 4 * c ∧ roundBits p (-c) = -c ∧ roundBits p (1 - 2 * c) = 1 - 2 * c ∧ roundBits p 1 = 1 ∧ roundBits p 3 = 3 ∧ roundBits p 4 = 4 := by
  have h2 : (2 : ℝ) ≠ 0 := two_ne_zero
  have hpow : (4 : ℝ) ≤ 2 ^ p := by
    calc (4 : ℝ) = 2 ^ 2 := by norm_num
      _ ≤ 2 ^ p := pow_le_pow_right₀ (by norm_num) hp
  obtain ⟨k, hk0, hk1, -, e1, e2⟩ := roundBits_third hp
  have hk0' : (0 : ℝ) < k := by exact_mod_cast hk0
  have hka : |(k : ℝ)| < 2 ^ p := by rw [abs_of_pos hk0']; exact hk1
  have w : (2 : ℝ) ^ (-1 - (p : ℤ)) * 2 ^ p = 1 / 2 := by
    rw [← zpow_natCast, ← zpow_add₀ h2]; norm_num
  have wpos : (0 : ℝ) < 2 ^ (-1 - (p : ℤ)) := zpow_pos two_pos _
  have x1 := roundBits_exact k (-1 - (p : ℤ)) hka
  have x2 := roundBits_exact k (-(p : ℤ)) hka
  have x3 := roundBits_exact k (1 - (p : ℤ)) hka
  have x4 := roundBits_exact (-k) (-1 - (p : ℤ)) (by push_cast; rwa [abs_neg])
  have x5 := roundBits_exact (2 ^ p - k) (-(p : ℤ)) (by push_cast; rw [abs_of_pos (by linarith)]; linarith)
  have s2 : (2 : ℝ) ^ (-(p : ℤ)) = 2 * 2 ^ (-1 - (p : ℤ)) := by
    rw [← zpow_one_add₀ h2]; congr 1; ring
  have s4 : (2 : ℝ) ^ (1 - (p : ℤ)) = 4 * 2 ^ (-1 - (p : ℤ)) := by
    rw [show (1 : ℤ) - p = 2 + (-1 - p) by ring, zpow_add₀ h2]; norm_num
  refine ⟨k * 2 ^ (-1 - (p : ℤ)), by positivity, ?_, ?_, e1, ?_, x1, ?_, ?_, ?_, ?_, ?_, ?_, ?_⟩
  · rw [← w, mul_comm (k : ℝ)]; exact mul_lt_mul_of_pos_left hk1 wpos
  · intro h
    have h3 : 3 * (k : ℝ) = 2 * 2 ^ p := by
      have : 3 * (k : ℝ) * (2 ^ (-1 - (p : ℤ)) * 2 ^ p) = 2 ^ p := by
        calc _ = 3 * ((k : ℝ) * 2 ^ (-1 - (p : ℤ))) * 2 ^ p := by ring
          _ = _ := by rw [h]; ring
      rw [w] at this; linarith
    have h4 : 3 * k.toNat = 2 ^ (p + 1) := by
      have : (3 : ℤ) * k = 2 ^ (p + 1) := by
        have : ((3 * k : ℤ) : ℝ) = ((2 ^ (p + 1) : ℤ) : ℝ) := by push_cast; rw [h3]; ring
        exact_mod_cast this
      zify
      rw [Int.toNat_of_nonneg hk0.le]; exact this
    have h5 : 3 ∣ 2 ^ (p + 1) := ⟨_, h4.symm⟩
    have := Nat.Prime.dvd_of_dvd_pow Nat.prime_three h5
    omega
  · rw [e2, s4]; ring
  · rw [s2] at x2
    rw [show 2 * ((k : ℝ) * 2 ^ (-1 - (p : ℤ))) = k * (2 * 2 ^ (-1 - (p : ℤ))) by ring]; exact x2
  · rw [s4] at x3
    rw [show 4 * ((k : ℝ) * 2 ^ (-1 - (p : ℤ))) = k * (4 * 2 ^ (-1 - (p : ℤ))) by ring]; exact x3
  · push_cast at x4
    rw [← neg_mul]; exact x4
  · push_cast at x5
    have : ((2 : ℝ) ^ p - k) * 2 ^ (-(p : ℤ)) = 1 - 2 * (k * 2 ^ (-1 - (p : ℤ))) := by
      rw [s2, sub_mul, mul_comm ((2 : ℝ) ^ p), mul_assoc, w]; ring
    rwa [this] at x5
  · simpa using roundBits_exact (p := p) 1 0 (by norm_num; linarith)
  · simpa using roundBits_exact (p := p) 3 0 (by norm_num; linarith)
  · have := roundBits_exact (p := p) 1 2 (by norm_num; linarith)
    rwa [show ((1 : ℤ) : ℝ) * 2 ^ (2 : ℤ) = 4 by norm_num] at this

/-- **C91.** The claim "an update that reports `Success` keeps every point of the ellipsoid that satisfies the cut" is false in binary floating point, for every number of bits: the central cut `(1, 0)` at the unit disc
gives an ellipsoid that misses the point `(0, 1)`. What holds is `C91_inflated`. -/
theorem C91_inflation_needed {p : ℕ} (hp : 2 ≤ p) : ∃ (e : Ell 2) (x : Vec 2), (Arith.ieee p).ellInit (.scalar 1) 0 = .ok e ∧
    x ∈ e.region ∧ x ∈ Spec.halfSpace ![1, 0] 0 e.xc ∧
    ((Arith.ieee p).updateCentralCut e (![1, 0], .scalar 0)).2 = .ok .success ∧
    ((Arith.ieee p).updateCentralCut e (![1, 0], .scalar 0)).1.mq.PosDef ∧
    x ∉ ((Arith.ieee p).updateCentralCut e (![1, 0], .scalar 0)).1.region := by
  obtain ⟨c, hc0, hc1, hc3, f1, f2, f3, f4, f5, f6, f7, f8, f9, f10⟩ := third_facts hp
  set A := Arith.ieee p with hA
  have hr : ∀ x, A.rnd x = roundBits p x := fun _ => rfl
  have hdot : ∀ x y : Vec 2, A.dot x y = roundBits p (roundBits p (0 + roundBits p (x 0 * y 0)) + roundBits p (x 1 * y 1)) := fun x y => by
    simp [hA, Arith.ieee, seqDot, Fin.foldl_succ]
  have hmv : ∀ (M : Mat 2) (x : Vec 2), A.mv M x = fun i => A.dot (M i) x := fun _ _ => rfl
  have hcore : A.coreInit 2 = .ok { nF := 2, halfN := roundBits p (2 / 2), nPlus1 := 3, invN := roundBits p (1 / 2), nSq := 4, cst0 := c, cst1 := 4 * c, cst2 := 2 * c, cst3 := 2 * c } := by
    have b1 : A.add 2 1 = 3 := by show roundBits p (2 + 1) = 3; rw [show (2 : ℝ) + 1 = 3 by norm_num, f9]
    have b2 : A.mul 2 2 = 4 := by show roundBits p (2 * 2) = 4; rw [show (2 : ℝ) * 2 = 4 by norm_num, f10]
    have b3 : A.sub 4 1 = 3 := by show roundBits p (4 - 1) = 3; rw [show (4 : ℝ) - 1 = 3 by norm_num, f9]
    have b4 : A.mul 2 c = 2 * c := f4
    have b5 : A.div 1 3 = c := f1
    have b6 : A.div 4 3 = 4 * c := f2
    unfold Arith.coreInit
    simp [Arith.pdiv, b1, b2, b3, b4, b5, b6]
    exact ⟨by simp [Arith.div, hr], by simp [Arith.div, hr]⟩
  set H : EllCalcCore := { nF := 2, halfN := roundBits p (2 / 2), nPlus1 := 3, invN := roundBits p (1 / 2), nSq := 4, cst0 := c, cst1 := 4 * c, cst2 := 2 * c, cst3 := 2 * c } with hH
  set e : Ell 2 := { mq := 1, xc := 0, kappa := 1, tsq := 0, helper := { useParallelCut := true, nF := 2, helper := H }, noDeferTrick := false } with he
  have hinit : A.ellInit (.scalar 1) (0 : Vec 2) = .ok e := by
    unfold Arith.ellInit Arith.calcInit
    simp [hcore]
    rfl
  have hgt : A.mv (1 : Mat 2) ![1, 0] = ![1, 0] := by
    funext i
    change A.dot ((1 : Mat 2) i) ![1, 0] = _
    rw [hdot]
    fin_cases i
    · change roundBits p (roundBits p (0 + roundBits p ((1 : Mat 2) 0 0 * 1)) + roundBits p ((1 : Mat 2) 0 1 * 0)) = 1
      rw [Matrix.one_apply_eq, mul_zero, roundBits_zero, add_zero, mul_one, zero_add, f8, f8, f8]
    · change roundBits p (roundBits p (0 + roundBits p ((1 : Mat 2) 1 0 * 1)) + roundBits p ((1 : Mat 2) 1 1 * 0)) = 0
      rw [Matrix.one_apply_ne (by decide)]; simp
  have hom : A.dot ![1, 0] ![(1 : ℝ), 0] = 1 := by rw [hdot]; simp [f8]
  have hup : A.updateCentralCut e (![1, 0], .scalar 0) = ({ e with mq := !![1 - 2 * c, 0; 0, 1], xc := ![-c, 0], kappa := 4 * c, tsq := 1 }, .ok .success) := by
    have b1 : A.mul 1 1 = 1 := by show roundBits p (1 * 1) = 1; rw [mul_one, f8]
    have b2 : A.psqrt 1 = .ok 1 := by
      unfold Arith.psqrt; rw [if_neg (by norm_num), Real.sqrt_one, hr, f8]
    have b3 : A.mul c 1 = c := by show roundBits p (c * 1) = c; rw [mul_one, f3]
    have b4 : A.div c 1 = c := by show roundBits p (c / 1) = c; rw [div_one, f3]
    have b5 : A.div (2 * c) 1 = 2 * c := by show roundBits p (2 * c / 1) = _; rw [div_one, f4]
    have b6 : A.mul 1 (4 * c) = 4 * c := by show roundBits p (1 * (4 * c)) = _; rw [one_mul, f5]
    have b7 : ∀ x, A.mul x 0 = 0 := fun x => by show roundBits p (x * 0) = 0; rw [mul_zero, roundBits_zero]
    have b8 : ∀ x, A.mul 0 x = 0 := fun x => by show roundBits p (0 * x) = 0; rw [zero_mul, roundBits_zero]
    have b9 : A.sub 0 0 = 0 := by show roundBits p (0 - 0) = 0; rw [sub_zero, roundBits_zero]
    have b10 : A.sub 0 c = -c := by show roundBits p (0 - c) = -c; rw [zero_sub, f6]
    have b11 : A.sub 1 (2 * c) = 1 - 2 * c := f7
    have b12 : A.sub 1 0 = 1 := by show roundBits p (1 - 0) = 1; rw [sub_zero, f8]
    have b13 : A.mul (2 * c) 1 = 2 * c := by show roundBits p (2 * c * 1) = 2 * c; rw [mul_one, f4]
    have hg : ¬ ∀ i, (![1, 0] : Vec 2) i = 0 := fun h => by simpa using h 0
    have hs : A.calcSingleOrParallelCentralCut e.helper (.scalar 0) 1 = .ok (.success, some ⟨c, 2 * c, 4 * c⟩) := by
      unfold Arith.calcSingleOrParallelCentralCut
      simp only [b2, except_ok_bind]
      unfold Arith.calcCentralCut
      rw [show e.helper.helper = H from rfl, hH]
      simp only [b3]
    have hmq : e.mq = 1 := rfl
    have hk : e.kappa = 1 := rfl
    have hxc : e.xc = 0 := rfl
    have hnd : e.noDeferTrick = false := rfl
    unfold Arith.updateCentralCut Arith.updateCore
    simp only [if_neg hg, hmq, hgt, hom, one_ne_zero, if_false, hk, b1, hs, hnd, Bool.false_eq_true, hxc, b4, b5, b6]
    refine Prod.ext (Ell.mk.injEq .. |>.mpr ⟨?_, ?_, rfl, rfl, rfl, rfl⟩) rfl
    · funext i j
      fin_cases i <;> fin_cases j <;> simp [b1, b7, b8, b9, b11, b12, b13]
    · funext i
      fin_cases i <;> simp [b3, b7, b9, b10]
  have hpd : (!![1 - 2 * c, 0; 0, 1] : Mat 2).PosDef := by
    rw [show (!![1 - 2 * c, 0; 0, 1] : Mat 2) = Matrix.diagonal ![1 - 2 * c, 1] by ext i j; fin_cases i <;> fin_cases j <;> rfl]
    exact Matrix.PosDef.diagonal fun i => by fin_cases i <;> simp; linarith
  refine ⟨e, ![0, 1], hinit, ?_, ?_, ?_, ?_, ?_⟩
  · change (![0, 1] - 0 : Vec 2) ⬝ᵥ ((1 : Mat 2)⁻¹ *ᵥ (![0, 1] - 0)) ≤ 1
    simp
  · change (![1, 0] : Vec 2) ⬝ᵥ (![0, 1] - 0) + 0 ≤ 0
    simp
  · rw [hup]
  · rw [hup]; exact hpd
  · rw [hup]
    intro hx
    have hinv : (!![1 - 2 * c, 0; 0, 1] : Mat 2)⁻¹ = !![(1 - 2 * c)⁻¹, 0; 0, 1] := by
      have h0 : 1 - 2 * c ≠ 0 := by linarith
      refine Matrix.inv_eq_right_inv ?_
      ext i j; fin_cases i <;> fin_cases j <;> simp [Matrix.mul_apply, Fin.sum_univ_two, h0]
    have hx' : (![0, 1] - ![-c, 0] : Vec 2) ⬝ᵥ ((!![1 - 2 * c, 0; 0, 1] : Mat 2)⁻¹ *ᵥ (![0, 1] - ![-c, 0])) ≤ 4 * c := hx
    rw [hinv] at hx'
    simp [dotProduct, Matrix.mulVec, Fin.sum_univ_two] at hx'
    have h0 : 0 < 1 - 2 * c := by linarith
    have : c * ((1 - 2 * c)⁻¹ * c) + 1 - 4 * c = (1 - 3 * c) ^ 2 / (1 - 2 * c) := by
      rw [eq_div_iff h0.ne']
      linear_combination c ^ 2 * inv_mul_cancel₀ h0.ne'
    have h3 : 0 < (1 - 3 * c) ^ 2 / (1 - 2 * c) := by
      have : 1 - 3 * c ≠ 0 := fun h => hc3 (by linarith)
      positivity
    linarith

variable {n : ℕ}

/-- The strategies of the three methods for a scalar offset. -/
theorem Arith.strategy_single {A : Arith} {u γ ε a κ ω oh β : ℝ} {N : ℕ} (hA : A.Accurate u γ N) (hu : 0 ≤ u) (huε : u ≤ ε) (hn : 2 ≤ n) {e : Ell n} (he : A.calcInit (n : ℤ) = .ok e.helper) (hek : e.kappa = κ) (hκ : 0 < κ)
    (hω : 0 < ω) (hoh : Rel (41 / 10 * ε) oh ω) {g : Vec n} (hoh' : A.dot g (A.mv e.mq g) = oh) (hg : g ≠ 0) (hd : e.noDeferTrick = false) (mt : Method) (hβ0 : 0 ≤ mt.offset β) (ha0 : 0 < a) (ha1 : a ≤ 1) (hβ : mt.offset β ≤ (1 - a) * Real.sqrt (κ * ω))
    (hε : 2000 * ε ≤ a) :
    ∃ p, ParamsRel ε a p (EllCalcCore.biasParams n (mt.offset β) (Real.sqrt (κ * ω))) ∧
    A.update e mt (g, .scalar β) = ({ e with
      xc := fun i => A.sub (e.xc i) (A.mul (A.div p.rho oh) (A.mv e.mq g i))
      mq := fun i j => A.sub (e.mq i j) (A.mul (A.div p.sigma oh) (A.mul (A.mv e.mq g i) (A.mv e.mq g j)))
      kappa := A.mul e.kappa p.delta
      tsq := A.mul e.kappa oh }, .ok .success) := by
  have hε0 : 0 ≤ ε := hu.trans huε
  have hc := Arith.coreRel hA hu (by linarith) hn he
  have R := fun x => (hA.rel hu (by linarith) x).mono (show 2 * u ≤ 2 * ε by linarith)
  have h0 : A.dot g (A.mv e.mq g) ≠ 0 := by rw [hoh']; exact (hoh.pos hω).ne'
  have rt : Rel (2 * ε + 41 / 10 * ε) (A.mul e.kappa oh) (κ * ω) := by rw [hek]; exact (R _).trans (hoh.const_mul κ)
  have hκω : 0 < κ * ω := mul_pos hκ hω
  have ht0 := rt.pos hκω
  have hτ : 0 < Real.sqrt (κ * ω) := Real.sqrt_pos.mpr hκω
  have rτ : Rel (51 / 10 * ε) (A.rnd (Real.sqrt (A.mul e.kappa oh))) (Real.sqrt (κ * ω)) := ((R _).trans rt.sqrt).mono (by linarith)
  have hps : A.psqrt (A.mul e.kappa oh) = .ok (A.rnd (Real.sqrt (A.mul e.kappa oh))) := by unfold Arith.psqrt; rw [if_neg ht0.not_gt]
  cases mt with
  | bias =>
    change 0 ≤ β at hβ0
    change β ≤ _ at hβ
    change ∃ p, ParamsRel ε a p (EllCalcCore.biasParams n β _) ∧ A.updateCore e (g, .scalar β) (A.calcSingleOrParallel e.helper) = _
    obtain ⟨-, p, hp, hrel⟩ := Arith.biasFast_rel hA hu huε hn hc hτ rτ hβ0 ha0 ha1 hβ hε
    refine ⟨p, hrel, ?_⟩
    rw [Arith.updateCore_some (st := .success) (p := p) hg h0 hd]
    · simp only [hoh']
    · simp only [hoh']
      have hns : ¬ A.mul e.kappa oh < A.mul β β := by
        have h1 := rt.lower hκω.le (by linarith)
        have h2 : A.mul β β ≤ (1 + ε) * β ^ 2 := by
          have := (abs_le.mp (hA.rnd (β * β))).2
          rw [abs_of_nonneg (mul_self_nonneg β)] at this
          have h3 : u * (β * β) ≤ ε * (β * β) := mul_le_mul_of_nonneg_right huε (mul_self_nonneg β)
          change A.rnd (β * β) ≤ _
          nlinarith
        have h3 : β ^ 2 ≤ (1 - a) * (κ * ω) := by
          have : β ^ 2 ≤ ((1 - a) * Real.sqrt (κ * ω)) ^ 2 := pow_le_pow_left₀ hβ0 hβ 2
          rw [mul_pow, Real.sq_sqrt hκω.le] at this
          refine this.trans (mul_le_mul_of_nonneg_right ?_ hκω.le)
          nlinarith
        have h4 : (1 + ε) * β ^ 2 ≤ (1 + ε) * ((1 - a) * (κ * ω)) := mul_le_mul_of_nonneg_left h3 (by linarith)
        have h5 : (1 + ε) * (1 - a) ≤ 1 - (2 * ε + 41 / 10 * ε + (2 * ε + 41 / 10 * ε) ^ 2) := by nlinarith
        have h6 := mul_le_mul_of_nonneg_right h5 hκω.le
        rw [not_lt]; linarith
      unfold Arith.calcSingleOrParallel Arith.calcBiasCut Arith.coreBiasCut
      simp only [ge_iff_le, if_pos hβ0, if_neg hns, hps, hc.hnF]
      simp only [except_ok_bind, hp]
  | central =>
    refine ⟨A.calcCentralCut e.helper.helper (A.rnd (Real.sqrt (A.mul e.kappa oh))), ?_, ?_⟩
    · have := Arith.central_rel hA hu huε (by linarith) hn hc hτ rτ
      refine ⟨this.rho, this.sigma, this.delta.mono ?_⟩
      rw [div_one]
      have : ε ≤ ε / a := by rw [le_div_iff₀ ha0]; nlinarith
      linarith
    · change A.updateCore e (g, .scalar β) (A.calcSingleOrParallelCentralCut e.helper) = _
      rw [Arith.updateCore_some (st := .success) (p := A.calcCentralCut e.helper.helper (A.rnd (Real.sqrt (A.mul e.kappa oh)))) hg h0 hd]
      · simp only [hoh']
      · simp only [hoh']
        unfold Arith.calcSingleOrParallelCentralCut
        simp only [hps, except_ok_bind]
  | q =>
    change 0 ≤ β at hβ0
    change β ≤ _ at hβ
    change ∃ p, ParamsRel ε a p (EllCalcCore.biasParams n β _) ∧ A.updateCore e (g, .scalar β) (A.calcSingleOrParallelQ e.helper) = _
    obtain ⟨hη, p, hp, hrel⟩ := Arith.biasFast_rel hA hu huε hn hc hτ rτ hβ0 ha0 ha1 hβ hε
    refine ⟨p, hrel, ?_⟩
    rw [Arith.updateCore_some (st := .success) (p := p) hg h0 hd]
    · simp only [hoh']
    · simp only [hoh']
      have hns : ¬ A.rnd (Real.sqrt (A.mul e.kappa oh)) < β := by
        have h1 := rτ.lower hτ.le (by linarith)
        have h5 : 1 - a ≤ 1 - (51 / 10 * ε + (51 / 10 * ε) ^ 2) := by nlinarith
        have h6 := mul_le_mul_of_nonneg_right h5 hτ.le
        rw [not_lt]; linarith
      unfold Arith.calcSingleOrParallelQ Arith.calcBiasCutQ
      rw [← hc.nF] at hη hp
      simp only [hps, except_ok_bind, if_neg hns, if_neg hη.not_ge, hp]

/-- What one floating-point cut does: with `ε = γ √n L / m` and `ξ = u ‖xc‖ / √(κ m)`, the new state `e'` has these properties. -/
structure StepFacts (e e' : Ell n) (g : Vec n) (β m L a ε ξ : ℝ) : Prop where
  helper : e'.helper = e.helper
  defer : e'.noDeferTrick = e.noDeferTrick
  symm : e'.mq.IsSymm
  posDef : e'.mq.PosDef
  kappa_pos : 0 < e'.kappa
  contains : ∀ φ s : ℝ, 1 ≤ φ → 0 ≤ s → ∀ x ∈ Spec.ellipsoid e.mq (e.kappa * φ ^ 2) e.xc, g ⬝ᵥ (x - e.xc) + β ≤ s * Real.sqrt (e.kappa * (g ⬝ᵥ (e.mq *ᵥ g))) →
    x ∈ Spec.ellipsoid e'.mq (e'.kappa * ((1 + 500 * (ε / a) + 4 * (ξ / a)) * (1 + (n + 1) / (n * a) * (φ - 1 + s)) ^ 2)) e'.xc
  shape : ∀ v : Vec n, (1 - (EllCalcCore.biasParams n β (Real.sqrt (e.kappa * (g ⬝ᵥ (e.mq *ᵥ g))))).sigma - 42 * ε) * (v ⬝ᵥ (e.mq *ᵥ v)) ≤ v ⬝ᵥ (e'.mq *ᵥ v) ∧
    v ⬝ᵥ (e'.mq *ᵥ v) ≤ (1 + 42 * ε) * (v ⬝ᵥ (e.mq *ᵥ v))
  centre : ∀ v : Vec n, |v ⬝ᵥ (e'.xc - e.xc)| ≤ Real.sqrt (v ⬝ᵥ (e.mq *ᵥ v)) * (1 + (ξ + 36 * ε)) * Real.sqrt e.kappa
  kappa : |e'.kappa - e.kappa * (EllCalcCore.biasParams n β (Real.sqrt (e.kappa * (g ⬝ᵥ (e.mq *ᵥ g))))).delta| ≤
    42 * (ε / a) * (e.kappa * (EllCalcCore.biasParams n β (Real.sqrt (e.kappa * (g ⬝ᵥ (e.mq *ᵥ g))))).delta)

open Spec in
/-- One floating-point cut. -/
theorem Arith.single_step {A : Arith} {u γ m L a β : ℝ} (hA : A.Accurate u γ n) (hu : 0 ≤ u) (huγ : u ≤ γ) (hn : 2 ≤ n) (e : Ell n) (he : A.calcInit (n : ℤ) = .ok e.helper) (hd : e.noDeferTrick = false) (hκ : 0 < e.kappa)
    (hsymm : e.mq.IsSymm) (hm : 0 < m) (hlow : ∀ v : Vec n, m * (v ⬝ᵥ v) ≤ v ⬝ᵥ (e.mq *ᵥ v)) (hup : ∀ v : Vec n, v ⬝ᵥ (e.mq *ᵥ v) ≤ L * (v ⬝ᵥ v))
    {g : Vec n} (hg : g ≠ 0) (mt : Method) (hβ0 : 0 ≤ mt.offset β) (ha0 : 0 < a) (ha1 : a ≤ 1) (hβ : mt.offset β ≤ (1 - a) * Real.sqrt (e.kappa * (g ⬝ᵥ (e.mq *ᵥ g))))
    (hε : 2000 * epsOf n γ m L ≤ a) (hξ : 1000 * (u * nrm e.xc / Real.sqrt (e.kappa * m)) ≤ a) :
    (A.update e mt (g, .scalar β)).2 = .ok .success ∧
    StepFacts e (A.update e mt (g, .scalar β)).1 g (mt.offset β) m L a (epsOf n γ m L) (u * nrm e.xc / Real.sqrt (e.kappa * m)) := by
  have D : CutData A u γ e.mq m L := ⟨hA, hu, huγ, hn, hsymm, hm, hlow, hup⟩
  have hε0 := D.eps_nonneg
  have hξ0 : 0 ≤ u * nrm e.xc / Real.sqrt (e.kappa * m) := by have := nrm_nonneg e.xc; positivity
  have hω : 0 < g ⬝ᵥ (e.mq *ᵥ g) := D.btw.posDef.dotProduct_mulVec_pos hg
  have huε := D.u_le_eps
  have hoh := D.omega_rel hω (by linarith)
  obtain ⟨p, hp, hup⟩ := Arith.strategy_single (β := β) hA hu huε hn he rfl hκ hω hoh rfl hg hd mt hβ0 ha0 ha1 hβ hε
  have hε1 : epsOf n γ m L ≤ 1 / 2000 := by linarith
  have R := fun x => (hA.rel hu (by linarith) x).mono (show 2 * u ≤ 2 * epsOf n γ m L by linarith)
  have hee : epsOf n γ m L ≤ epsOf n γ m L / a := by rw [le_div_iff₀ ha0]; nlinarith
  have ra : Rel (31 * epsOf n γ m L) (A.div p.rho (A.dot g (A.mv e.mq g))) _ := ((R _).trans (hp.rho.div hoh)).mono (by linarith)
  have rc : Rel (31 * epsOf n γ m L) (A.div p.sigma (A.dot g (A.mv e.mq g))) _ := ((R _).trans (hp.sigma.div hoh)).mono (by linarith)
  have rk : Rel (41 * (epsOf n γ m L / a)) (A.mul e.kappa p.delta) _ := ((R _).trans (hp.delta.const_mul e.kappa)).mono (by linarith)
  obtain ⟨h1, h2, h3, h4, h5, h6⟩ := D.single_contains hκ (x0 := e.xc) hω hβ0 ha0 ha1 hβ ra rc rk hε hξ
  have hs' : (A.update e mt (g, .scalar β)).1.mq.IsSymm := by
    have := (C90_symmetric A e hsymm [(mt, (g, .scalar β))]).1
    exact this
  rw [hup] at hs' ⊢
  have hpd : Matrix.PosDef (fun i j => A.sub (e.mq i j) (A.mul (A.div p.sigma (A.dot g (A.mv e.mq g))) (A.mul (A.mv e.mq g i) (A.mv e.mq g j))) : Mat n) :=
    posDef_of_symm hs' h2
  refine ⟨rfl, rfl, rfl, hs', hpd, h1, fun φ s hφ hs x hx hc => ?_, h4, h5, h6⟩
  have hx1 : x ∈ supportSet e.mq (e.kappa * φ ^ 2) e.xc := by rw [supportSet_eq_ellipsoid D.btw.posDef (by positivity)]; exact hx
  have := h3 φ s hφ hs x hx1 hc
  rw [supportSet_eq_ellipsoid hpd (by positivity)] at this
  exact this

open Spec in
/-- **C91.** One floating-point cut keeps every point, up to an inflation. Let `m ≤ mq ≤ L` as quadratic forms, let `ε = γ √n L / m` (`γ` the relative error of an inner product) and let
`ξ = u ‖xc‖ / √(κ m)` be the rounding error of the centre in units of the smallest semi-axis. If the cut stays clear of the far end of the ellipsoid by the fraction `a` of the way (`β ≤ (1 - a) τ`; `a = 1` for a central cut), and `ε` and
`ξ` are small against `a`, then the call reports `Success`, the shape stays positive definite, and each point of the old ellipsoid that satisfies the cut lies in the new ellipsoid after `κ` is
multiplied by `1 + (500 ε + 4 ξ) / a`. -/
theorem C91_inflated {A : Arith} {u γ m L a β : ℝ} (hA : A.Accurate u γ n) (hu : 0 ≤ u) (huγ : u ≤ γ) (hn : 2 ≤ n) (e : Ell n) (he : A.calcInit (n : ℤ) = .ok e.helper) (hd : e.noDeferTrick = false) (hκ : 0 < e.kappa)
    (hsymm : e.mq.IsSymm) (hm : 0 < m) (hlow : ∀ v : Vec n, m * (v ⬝ᵥ v) ≤ v ⬝ᵥ (e.mq *ᵥ v)) (hup : ∀ v : Vec n, v ⬝ᵥ (e.mq *ᵥ v) ≤ L * (v ⬝ᵥ v))
    {g : Vec n} (hg : g ≠ 0) (mt : Method) (hβ0 : 0 ≤ mt.offset β) (ha0 : 0 < a) (ha1 : a ≤ 1) (hβ : mt.offset β ≤ (1 - a) * Real.sqrt (e.kappa * (g ⬝ᵥ (e.mq *ᵥ g))))
    (hε : 2000 * (γ * Real.sqrt n * (L / m)) ≤ a) (hξ : 1000 * (u * Real.sqrt (e.xc ⬝ᵥ e.xc) / Real.sqrt (e.kappa * m)) ≤ a) :
    (A.update e mt (g, .scalar β)).2 = .ok .success ∧ (A.update e mt (g, .scalar β)).1.mq.PosDef ∧ 0 < (A.update e mt (g, .scalar β)).1.kappa ∧
    ∀ x ∈ e.region ∩ halfSpace g (mt.offset β) e.xc,
      x ∈ ellipsoid (A.update e mt (g, .scalar β)).1.mq
        ((A.update e mt (g, .scalar β)).1.kappa * (1 + (500 * (γ * Real.sqrt n * (L / m)) + 4 * (u * Real.sqrt (e.xc ⬝ᵥ e.xc) / Real.sqrt (e.kappa * m))) / a))
        (A.update e mt (g, .scalar β)).1.xc := by
  obtain ⟨h1, h2⟩ := Arith.single_step hA hu huγ hn e he hd hκ hsymm hm hlow hup hg mt hβ0 ha0 ha1 hβ hε hξ
  refine ⟨h1, h2.posDef, h2.kappa_pos, fun x hx => ?_⟩
  have h3 := h2.contains 1 0 le_rfl le_rfl x (by rw [one_pow, mul_one]; exact hx.1) (by rw [zero_mul]; exact hx.2)
  rw [show (500 * (γ * Real.sqrt n * (L / m)) + 4 * (u * Real.sqrt (e.xc ⬝ᵥ e.xc) / Real.sqrt (e.kappa * m))) / a =
    500 * (epsOf n γ m L / a) + 4 * (u * nrm e.xc / Real.sqrt (e.kappa * m) / a) by unfold epsOf nrm; ring, ← add_assoc]
  rw [sub_self, zero_add, mul_zero, add_zero, one_pow, mul_one] at h3
  exact h3

/-- Double precision (53 bits): from the unit disc, the deep cut `x₀ + 1/2 ≤ 0` by each of the three methods meets the hypotheses of `C91_inflated` with `a = 1/2`. -/
example (mt : Method) : ∃ e : Ell 2, (Arith.ieee 53).ellInit (.scalar 1) 0 = .ok e ∧ ((Arith.ieee 53).update e mt (![1, 0], .scalar (1 / 2))).2 = .ok .success ∧
    ((Arith.ieee 53).update e mt (![1, 0], .scalar (1 / 2))).1.mq.PosDef := by
  obtain ⟨c, hc, -⟩ := Arith.core_facts (n := 2) (Arith.ieee_accurate 53 2) (by positivity) (by norm_num) le_rfl
  have hi : (Arith.ieee 53).ellInit (.scalar 1) (0 : Vec 2) = .ok { mq := 1, xc := 0, kappa := 1, tsq := 0, helper := c, noDeferTrick := false } := by
    unfold Arith.ellInit
    rw [hc]
    rfl
  refine ⟨_, hi, ?_⟩
  have hm : (mt.offset (1 / 2) : ℝ) = 0 ∨ (mt.offset (1 / 2) : ℝ) = 1 / 2 := by cases mt <;> simp [Method.offset]
  have h2 : Real.sqrt 2 ≤ 2 := by rw [Real.sqrt_le_left (by norm_num)]; norm_num
  have h := C91_inflated (m := 1) (L := 1) (a := 1 / 2) (β := 1 / 2) (Arith.ieee_accurate 53 2) (by positivity) (by norm_num) le_rfl
    ({ mq := 1, xc := 0, kappa := 1, tsq := 0, helper := c, noDeferTrick := false } : Ell 2) hc rfl one_pos Matrix.isSymm_one one_pos (fun v => by simp) (fun v => by simp)
    (g := ![1, 0]) (fun h => by simpa using congrFun h 0) mt (by rcases hm with h | h <;> norm_num [h]) (by norm_num) (by norm_num)
    (by rcases hm with h | h <;> rw [h] <;> norm_num)
    (by
      push_cast
      have : (((1 : ℝ) + 2⁻¹ ^ 53) ^ (2 + 1) - 1) * Real.sqrt 2 ≤ ((1 + 2⁻¹ ^ 53) ^ (2 + 1) - 1) * 2 := mul_le_mul_of_nonneg_left h2 (by norm_num)
      calc _ ≤ 2000 * (((1 + (2 : ℝ)⁻¹ ^ 53) ^ (2 + 1) - 1) * 2) := by rw [div_one, mul_one]; linarith
        _ ≤ _ := by norm_num)
    (by simp)
  exact ⟨h.1, h.2.1⟩

end Ellalgo
