import Verif.Props.PowerScale
import Verif.Props.EllHistory
import Verif.Model.Rounded

/-!
# C136: a cut scaled by a power of two makes the same update, bit for bit
-/

namespace Ellalgo

open Finset Matrix Spec

variable {n : ℕ}

namespace Arith

variable {A : Arith} {c : ℝ}

/-- Rounding commutes with multiplication by `c > 0`. -/
structure RndScale (A : Arith) (c : ℝ) : Prop where
  pos : 0 < c
  rnd : ∀ z, A.rnd (c * z) = c * A.rnd z

namespace RndScale

variable (h : RndScale A c)
include h

theorem sq : RndScale A (c ^ 2) :=
  ⟨pow_pos h.pos 2, fun z => by rw [pow_two, mul_assoc, h.rnd, h.rnd, mul_assoc]⟩

theorem add (a b : ℝ) : A.add (c * a) (c * b) = c * A.add a b := by
  unfold Arith.add; rw [← mul_add, h.rnd]

theorem sub (a b : ℝ) : A.sub (c * a) (c * b) = c * A.sub a b := by
  unfold Arith.sub; rw [← mul_sub, h.rnd]

theorem mulr (a b : ℝ) : A.mul a (c * b) = c * A.mul a b := by
  unfold Arith.mul; rw [mul_left_comm, h.rnd]

theorem mull (a b : ℝ) : A.mul (c * a) b = c * A.mul a b := by
  unfold Arith.mul; rw [mul_assoc, h.rnd]

theorem mul2 (a b : ℝ) : A.mul (c * a) (c * b) = c ^ 2 * A.mul a b := by
  rw [h.mull, h.mulr, pow_two, mul_assoc]

theorem divn (a b : ℝ) : A.div (c * a) b = c * A.div a b := by
  unfold Arith.div; rw [mul_div_assoc, h.rnd]

theorem div2 (a b : ℝ) : A.div (c * a) (c * b) = A.div a b := by
  unfold Arith.div; rw [mul_div_mul_left _ _ h.pos.ne']

theorem pdiv2 (a b : ℝ) : A.pdiv (c * a) (c * b) = A.pdiv a b := by
  unfold Arith.pdiv
  simp only [mul_eq_zero, h.pos.ne', false_or, h.div2]

theorem pdivn (a b : ℝ) : A.pdiv (c * a) b = (A.pdiv a b).map (c * ·) := by
  unfold Arith.pdiv
  split_ifs
  · rfl
  · rw [h.divn]; rfl

theorem psqrt (x : ℝ) : A.psqrt (c ^ 2 * x) = (A.psqrt x).map (c * ·) := by
  have hc := h.pos
  unfold Arith.psqrt
  by_cases hx : x < 0
  · rw [if_pos hx, if_pos (mul_neg_of_pos_of_neg (by positivity) hx)]; rfl
  · have h1 : ¬ c ^ 2 * x < 0 := not_lt.mpr (mul_nonneg (by positivity) (not_lt.mp hx))
    rw [if_neg hx, if_neg h1, Real.sqrt_mul (by positivity), Real.sqrt_sq hc.le, h.rnd]; rfl

theorem biasFast (k : EllCalcCore) (β τ η : ℝ) :
    A.calcBiasCutFast k (c * β) (c * τ) (c * η) = (A.calcBiasCutFast k β τ η).map (Params.scale c) := by
  unfold Arith.calcBiasCutFast
  rw [h.pdiv2, h.mulr, h.mulr, h.add, h.pdiv2]
  rcases A.pdiv β τ with f | a
  · rfl
  rcases A.pdiv (A.mul k.cst2 η) (A.add τ β) with f | b <;> rfl

theorem parallelFast (k : EllCalcCore) (β0 β1 tsq b η : ℝ) :
    A.calcParallelBiasCutFast k (c * β0) (c * β1) (c ^ 2 * tsq) (c ^ 2 * b) (c ^ 2 * η) =
      (A.calcParallelBiasCutFast k β0 β1 tsq b η).map (Params.scale c) := by
  have h2 := h.sq
  unfold Arith.calcParallelBiasCutFast
  simp only [h.mul2, h.add, h2.sub]
  rw [h2.mulr k.halfN (A.sub _ _), h2.mul2, h2.mul2, h2.sq.add, h2.psqrt]
  rcases A.psqrt _ with f | ξ
  · rfl
  simp only [except_ok_bind, except_map_ok]
  rw [h2.mulr, h2.mulr, h2.add, h2.add, h2.add, h2.pdiv2]
  rcases A.pdiv (A.mul 2 η) _ with f | σ
  · rfl
  simp only [except_ok_bind]
  rw [h2.pdivn]
  rcases A.pdiv ξ k.nF with f | xn
  · rfl
  simp only [except_ok_bind, except_map_ok]
  rw [h2.add, h2.divn, h2.add, h2.mulr, h2.pdiv2, h.mulr, h.divn]
  rcases A.pdiv _ tsq with f | δ <;> rfl

theorem parallelCentral (k : EllCalcCore) (β1 tsq : ℝ) :
    A.calcParallelCentralCut k (c * β1) (c ^ 2 * tsq) = (A.calcParallelCentralCut k β1 tsq).map (Params.scale c) := by
  unfold Arith.calcParallelCentralCut
  rw [h.mul2, h.sq.pdiv2]
  rcases A.pdiv (A.mul β1 β1) tsq with f | a
  · rfl
  simp only [except_ok_bind]
  rcases A.psqrt _ with f | s
  · rfl
  simp only [except_ok_bind]
  rw [h.pdivn]
  rcases A.pdiv β1 _ with f | ρ
  · rfl
  simp only [except_ok_bind, except_map_ok]
  rcases A.pdiv 2 _ with f | σ
  · rfl
  simp only [except_ok_bind]
  rcases A.pdiv _ _ with f | δ <;> rfl

variable (k : EllCalc)

theorem biasCut (β tsq : ℝ) : A.calcBiasCut k (c * β) (c ^ 2 * tsq) = scaleResult c (A.calcBiasCut k β tsq) := by
  have hc := h.pos
  have hc2 := h.sq.pos
  unfold Arith.calcBiasCut
  by_cases hb : 0 ≤ β
  · rw [if_pos (mul_nonneg hc.le hb : c * β ≥ 0), if_pos (hb : β ≥ 0)]
    simp only
    rw [h.mul2]
    by_cases h1 : tsq < A.mul β β
    · rw [if_pos h1, if_pos (mul_lt_mul_of_pos_left h1 hc2)]; rfl
    · rw [if_neg h1, if_neg (not_lt.mpr (mul_le_mul_of_nonneg_left (not_lt.mp h1) hc2.le)), h.psqrt]
      rcases A.psqrt tsq with f | τ
      · rfl
      simp only [except_ok_bind, except_map_ok]
      unfold Arith.coreBiasCut
      rw [h.mulr, h.add, h.biasFast, EllCalc.bind_success_scale]
  · have h' : ¬ c * β ≥ 0 := not_le.mpr (mul_neg_of_pos_of_neg hc (not_le.mp hb))
    rw [if_neg h', if_neg hb]; rfl

theorem gate (β tsq : ℝ) :
    (c * β > 0 ∧ c ^ 2 * tsq ≤ A.mul (c * β) (c * β)) ↔ (β > 0 ∧ tsq ≤ A.mul β β) := by
  rw [h.mul2, mul_le_mul_iff_right₀ h.sq.pos, gt_iff_lt, mul_pos_iff_of_pos_left h.pos]

theorem parallel (β0 β1 tsq : ℝ) :
    A.calcParallel k (c * β0) (c * β1) (c ^ 2 * tsq) = scaleResult c (A.calcParallel k β0 β1 tsq) := by
  have hc := h.pos
  unfold Arith.calcParallel
  by_cases hb : β1 < β0
  · rw [if_pos hb, if_pos (mul_lt_mul_of_pos_left hb hc)]; rfl
  rw [if_neg hb, if_neg (not_lt.mpr (mul_le_mul_of_nonneg_left (not_lt.mp hb) hc.le))]
  simp only
  by_cases h1 : β1 > 0 ∧ tsq ≤ A.mul β1 β1
  · rw [if_pos h1, if_pos ((h.gate _ _).mpr h1), h.biasCut]
  · rw [if_neg h1, if_neg (fun h' => h1 ((h.gate _ _).mp h'))]
    unfold Arith.calcParallelBiasCut
    simp only
    rw [h.mul2, h.sq.mulr, h.sq.add, h.parallelFast, EllCalc.bind_success_scale]

theorem biasCutQ (β tsq : ℝ) : A.calcBiasCutQ k (c * β) (c ^ 2 * tsq) = scaleResult c (A.calcBiasCutQ k β tsq) := by
  have hc := h.pos
  unfold Arith.calcBiasCutQ
  rw [h.psqrt]
  rcases A.psqrt tsq with f | τ
  · rfl
  simp only [except_ok_bind, except_map_ok]
  by_cases hb : τ < β
  · rw [if_pos hb, if_pos (mul_lt_mul_of_pos_left hb hc)]; rfl
  rw [if_neg hb, if_neg (not_lt.mpr (mul_le_mul_of_nonneg_left (not_lt.mp hb) hc.le)), h.mulr, h.add]
  by_cases h1 : A.add τ (A.mul k.nF β) ≤ 0
  · rw [if_pos h1, if_pos (mul_nonpos_of_nonneg_of_nonpos hc.le h1)]; rfl
  rw [if_neg h1, if_neg (not_le.mpr (mul_pos hc (not_le.mp h1))), h.biasFast, EllCalc.bind_success_scale]

theorem parallelQ (β0 β1 tsq : ℝ) :
    A.calcParallelQ k (c * β0) (c * β1) (c ^ 2 * tsq) = scaleResult c (A.calcParallelQ k β0 β1 tsq) := by
  have hc := h.pos
  have hc2 := h.sq.pos
  unfold Arith.calcParallelQ
  by_cases hb : β1 < β0
  · rw [if_pos hb, if_pos (mul_lt_mul_of_pos_left hb hc)]; rfl
  rw [if_neg hb, if_neg (not_lt.mpr (mul_le_mul_of_nonneg_left (not_lt.mp hb) hc.le))]
  simp only
  by_cases h1 : β1 > 0 ∧ tsq ≤ A.mul β1 β1
  · rw [if_pos h1, if_pos ((h.gate _ _).mpr h1), h.biasCutQ]
  · rw [if_neg h1, if_neg (fun h' => h1 ((h.gate _ _).mp h'))]
    rw [h.mul2, h.sq.mulr, h.sq.add]
    by_cases h2 : A.add tsq (A.mul k.nF (A.mul β0 β1)) ≤ 0
    · rw [if_pos h2, if_pos (mul_nonpos_of_nonneg_of_nonpos hc2.le h2)]; rfl
    rw [if_neg h2, if_neg (not_le.mpr (mul_pos hc2 (not_le.mp h2))), h.parallelFast, EllCalc.bind_success_scale]

theorem single (β : CutChoice) (tsq : ℝ) :
    A.calcSingleOrParallel k (β.scale c) (c ^ 2 * tsq) = scaleResult c (A.calcSingleOrParallel k β tsq) := by
  match β with
  | .scalar b => exact h.biasCut k b tsq
  | .seq bs =>
    simp only [CutChoice.scale, Arith.calcSingleOrParallel, List.length_map]
    split_ifs
    · rw [EllCalc.firstOffset_scale]
      rcases EllCalc.firstOffset bs with f | b
      · rfl
      · exact h.biasCut k b tsq
    · rw [List.getElem?_map, EllCalc.firstOffset_scale]
      rcases bs[1]? with _ | _ | b1
      · rfl
      · rfl
      · rcases EllCalc.firstOffset bs with f | b0
        · rfl
        · exact h.parallel k b0 b1 tsq

theorem singleQ (β : CutChoice) (tsq : ℝ) :
    A.calcSingleOrParallelQ k (β.scale c) (c ^ 2 * tsq) = scaleResult c (A.calcSingleOrParallelQ k β tsq) := by
  match β with
  | .scalar b => exact h.biasCutQ k b tsq
  | .seq bs =>
    simp only [CutChoice.scale, Arith.calcSingleOrParallelQ, List.length_map]
    split_ifs
    · rw [EllCalc.firstOffset_scale]
      rcases EllCalc.firstOffset bs with f | b
      · rfl
      · exact h.biasCutQ k b tsq
    · rw [List.getElem?_map, EllCalc.firstOffset_scale]
      rcases bs[1]? with _ | _ | b1
      · rfl
      · rfl
      · rcases EllCalc.firstOffset bs with f | b0
        · rfl
        · exact h.parallelQ k b0 b1 tsq

theorem central (β : CutChoice) (tsq : ℝ) :
    A.calcSingleOrParallelCentralCut k (β.scale c) (c ^ 2 * tsq) =
      scaleResult c (A.calcSingleOrParallelCentralCut k β tsq) := by
  have hc := h.pos
  have hc2 := h.sq.pos
  have hcen : (do
      let tau ← A.psqrt (c ^ 2 * tsq)
      Except.ok (CutStatus.success, some (A.calcCentralCut k.helper tau)) : StrategyResult) =
      scaleResult c (do
        let tau ← A.psqrt tsq
        Except.ok (CutStatus.success, some (A.calcCentralCut k.helper tau))) := by
    rw [h.psqrt]
    rcases A.psqrt tsq with f | τ
    · rfl
    · simp only [except_map_ok, except_ok_bind, scaleResult, Arith.calcCentralCut, Option.map, Params.scale]
      rw [h.mulr]
  match β with
  | .scalar b => exact hcen
  | .seq bs =>
    simp only [CutChoice.scale, Arith.calcSingleOrParallelCentralCut, List.length_map]
    split_ifs
    · exact hcen
    · rw [List.getElem?_map]
      rcases bs[1]? with _ | _ | b1
      · rfl
      · rfl
      · simp only [Option.map]
        rw [h.mul2]
        by_cases hb : b1 < 0
        · rw [if_pos hb, if_pos (mul_neg_of_pos_of_neg hc hb)]; rfl
        rw [if_neg hb, if_neg (not_lt.mpr (mul_nonneg hc.le (not_lt.mp hb)))]
        by_cases h1 : tsq ≤ A.mul b1 b1
        · rw [if_pos h1, if_pos (mul_le_mul_of_nonneg_left h1 hc2.le)]; exact hcen
        · rw [if_neg h1, if_neg (not_le.mpr (mul_lt_mul_of_pos_left (not_le.mp h1) hc2)),
            h.parallelCentral, EllCalc.bind_success_scale]

end RndScale

/-- The three public methods in the arithmetic `A`. -/
noncomputable def updateBy (A : Arith) (e : Ell n) (m : Method) (cut : Cut n) : Ell n × Except Fault CutStatus :=
  match m with
  | .bias => A.updateBiasCut e cut
  | .central => A.updateCentralCut e cut
  | .q => A.updateQ e cut

theorem updateCore_homog (h : Homog A c) (hmv : ∀ (M : Mat n) (x : Vec n), A.mv M (c • x) = c • A.mv M x)
    (e : Ell n) (cut : Cut n) (s : Strategy)
    (hs : ∀ β t, s (CutChoice.scale c β) (c ^ 2 * t) = scaleResult c (s β t)) :
    (A.updateCore e (cut.scale c) s).2 = (A.updateCore e cut s).2 ∧
    (A.updateCore e (cut.scale c) s).1.xc = (A.updateCore e cut s).1.xc ∧
    (A.updateCore e (cut.scale c) s).1.mq = (A.updateCore e cut s).1.mq ∧
    (A.updateCore e (cut.scale c) s).1.kappa = (A.updateCore e cut s).1.kappa := by
  obtain ⟨g, β⟩ := cut
  have hc := h.pos
  have r : RndScale A c := ⟨h.pos, h.rnd⟩
  have hg : (∀ i, (c • g) i = 0) ↔ ∀ i, g i = 0 := by simp [hc.ne']
  have hω : A.dot (c • g) (A.mv e.mq (c • g)) = c ^ 2 * A.dot g (A.mv e.mq g) := by
    rw [hmv, h.dotl, h.dotr, pow_two, mul_assoc]
  simp only [Cut.scale]
  unfold Arith.updateCore
  simp only [hg, hω, r.sq.mulr, hs, mul_eq_zero, r.sq.pos.ne', false_or]
  by_cases h1 : ∀ i, g i = 0
  · simp [if_pos h1]
  simp only [if_neg h1]
  by_cases h2 : A.dot g (A.mv e.mq g) = 0
  · simp [if_pos h2]
  simp only [if_neg h2]
  rcases s β (A.mul e.kappa (A.dot g (A.mv e.mq g))) with f | ⟨st, _ | p⟩
  · exact ⟨rfl, rfl, rfl, rfl⟩
  · exact ⟨rfl, rfl, rfl, rfl⟩
  · have e1 : ∀ i, A.mul (A.div (c * p.rho) (c ^ 2 * A.dot g (A.mv e.mq g))) (A.mv e.mq (c • g) i) =
        A.mul (A.div p.rho (A.dot g (A.mv e.mq g))) (A.mv e.mq g i) := by
      intro i
      rw [hmv, Pi.smul_apply, smul_eq_mul, r.mulr, ← r.mull, ← r.divn, ← mul_assoc, ← pow_two, r.sq.div2]
    have e2 : ∀ i j, A.mul (A.div p.sigma (c ^ 2 * A.dot g (A.mv e.mq g)))
        (A.mul (A.mv e.mq (c • g) i) (A.mv e.mq (c • g) j)) =
        A.mul (A.div p.sigma (A.dot g (A.mv e.mq g))) (A.mul (A.mv e.mq g i) (A.mv e.mq g j)) := by
      intro i j
      rw [hmv, Pi.smul_apply, Pi.smul_apply, smul_eq_mul, smul_eq_mul, r.mul2, r.sq.mulr, ← r.sq.mull,
        ← r.sq.divn, r.sq.div2]
    simp only [scaleResult, except_map_ok, Option.map, Params.scale, e1, e2]
    split_ifs <;> simp <;> rfl

end Arith

/-- **C136, any arithmetic** in which multiplication by `c` is exact and commutes with every operation: a call with
`(c·g, c·β)` has the same outcome and leaves the same centre, matrix and scale as the call with `(g, β)`. -/
theorem C136_scale {A : Arith} {c : ℝ} (h : Homog A c)
    (hmv : ∀ (M : Mat n) (x : Vec n), A.mv M (c • x) = c • A.mv M x) (e : Ell n) (m : Method) (cut : Cut n) :
    (A.updateBy e m (cut.scale c)).2 = (A.updateBy e m cut).2 ∧
    (A.updateBy e m (cut.scale c)).1.xc = (A.updateBy e m cut).1.xc ∧
    (A.updateBy e m (cut.scale c)).1.mq = (A.updateBy e m cut).1.mq ∧
    (A.updateBy e m (cut.scale c)).1.kappa = (A.updateBy e m cut).1.kappa := by
  have r : Arith.RndScale A c := ⟨h.pos, h.rnd⟩
  cases m with
  | bias => exact Arith.updateCore_homog h hmv e cut _ (r.single _)
  | central => exact Arith.updateCore_homog h hmv e cut _ (r.central _)
  | q => exact Arith.updateCore_homog h hmv e cut _ (r.singleQ _)

/-- In exact arithmetic the hypotheses hold for every `c > 0`. -/
example : Homog Arith.exact 3 ∧ ∀ (M : Mat 2) (x : Vec 2), Arith.exact.mv M ((3 : ℝ) • x) = (3 : ℝ) • Arith.exact.mv M x :=
  ⟨homog_exact (by norm_num), fun M x => mulVec_smul M 3 x⟩

/-- **C136, floating point.** With `p`-bit numbers, sums added from first to last and no overflow or underflow, the
cut multiplied by any power of two (negative powers included) gives the same update, bit for bit. -/
theorem C136_bits (p : ℕ) (k : ℤ) (e : Ell n) (m : Method) (cut : Cut n) :
    ((Arith.ieee p).updateBy e m (cut.scale (2 ^ k))).2 = ((Arith.ieee p).updateBy e m cut).2 ∧
    ((Arith.ieee p).updateBy e m (cut.scale (2 ^ k))).1.xc = ((Arith.ieee p).updateBy e m cut).1.xc ∧
    ((Arith.ieee p).updateBy e m (cut.scale (2 ^ k))).1.mq = ((Arith.ieee p).updateBy e m cut).1.mq ∧
    ((Arith.ieee p).updateBy e m (cut.scale (2 ^ k))).1.kappa = ((Arith.ieee p).updateBy e m cut).1.kappa := by
  refine C136_scale (homog_ieee p k) (fun M x => ?_) e m cut
  funext i
  show seqDot _ (M i) _ = _ * seqDot _ (M i) x
  rw [seqDot_comm, seqDot_comm _ (M i) x]
  exact seqDot_scale (roundBits_zpow_mul p k) x (M i) _ fun j => by rw [Pi.smul_apply, smul_eq_mul, mul_assoc]

/-- The gradient and the offset really change: eight times the cut `x₀ + 1/2 ≤ 0` is another cut. -/
example : (Cut.scale (2 ^ (3 : ℤ)) (![1, 0], .scalar (1 / 2)) : Cut 2) = (![8, 0], .scalar 4) := by
  simp only [Cut.scale, CutChoice.scale, Prod.mk.injEq, CutChoice.scalar.injEq]
  refine ⟨?_, by norm_num⟩
  funext i
  fin_cases i <;> norm_num

end Ellalgo
