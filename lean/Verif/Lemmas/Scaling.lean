import Verif.Lemmas.EllUpdate

/-! Homogeneity of the cut strategies, for an arbitrary helper object. -/

namespace Ellalgo

open Matrix

/-- Multiply the offsets by `c`. -/
def CutChoice.scale (c : ℝ) : CutChoice → CutChoice
  | .scalar b => .scalar (c * b)
  | .seq bs => .seq (bs.map (Option.map (c * ·)))

/-- Multiply `ρ` by `c`. -/
def Params.scale (c : ℝ) (p : Params) : Params := { p with rho := c * p.rho }

/-- The strategy result for the scaled cut. -/
def scaleResult (c : ℝ) (r : StrategyResult) : StrategyResult :=
  r.map fun x => (x.1, x.2.map (Params.scale c))

theorem pdiv_scale {c : ℝ} (hc : c ≠ 0) (a b : ℝ) : pdiv (c * a) (c * b) = pdiv a b := by
  unfold pdiv
  by_cases hb : b = 0
  · simp [hb]
  · simp [hb, hc, mul_div_mul_left]

theorem pdiv_scale_num {c : ℝ} (a b : ℝ) : pdiv (c * a) b = (pdiv a b).map (c * ·) := by
  unfold pdiv
  by_cases hb : b = 0
  · simp [hb, Except.map]
  · simp [hb, Except.map, mul_div_assoc]

theorem psqrt_scale {c : ℝ} (hc : 0 < c) (x : ℝ) : psqrt (c ^ 2 * x) = (psqrt x).map (c * ·) := by
  unfold psqrt
  by_cases hx : x < 0
  · rw [if_pos hx, if_pos (mul_neg_of_pos_of_neg (by positivity) hx)]; rfl
  · have h1 : ¬ c ^ 2 * x < 0 := not_lt.mpr (mul_nonneg (by positivity) (not_lt.mp hx))
    rw [if_neg hx, if_neg h1, Real.sqrt_mul (by positivity), Real.sqrt_sq hc.le]; rfl

theorem except_map_ok.{u, v, w} {ε : Type u} {α : Type v} {β : Type w} (f : α → β) (a : α) :
    (Except.ok a : Except ε α).map f = .ok (f a) := rfl

theorem except_map_error.{u, v, w} {ε : Type u} {α : Type v} {β : Type w} (f : α → β) (a : ε) :
    (Except.error a : Except ε α).map f = .error a := rfl

namespace EllCalcCore

variable (k : EllCalcCore) {c : ℝ}

theorem calcBiasCutFast_scale (hc : 0 < c) (β τ η : ℝ) :
    k.calcBiasCutFast (c * β) (c * τ) (c * η) =
      (k.calcBiasCutFast β τ η).map (Params.scale c) := by
  unfold calcBiasCutFast
  rw [pdiv_scale hc.ne', show k.cst2 * (c * η) = c * (k.cst2 * η) by ring,
    show c * τ + c * β = c * (τ + β) by ring, pdiv_scale hc.ne']
  rcases pdiv β τ with f | a
  · rfl
  rcases pdiv (k.cst2 * η) (τ + β) with f | b
  · rfl
  simp only [except_ok_bind, except_map_ok, Params.scale, Except.ok.injEq, Params.mk.injEq]
  exact ⟨by ring, trivial, trivial⟩

theorem calcParallelBiasCutFast_scale (hc : 0 < c) (β0 β1 tsq b η : ℝ) :
    k.calcParallelBiasCutFast (c * β0) (c * β1) (c ^ 2 * tsq) (c ^ 2 * b) (c ^ 2 * η) =
      (k.calcParallelBiasCutFast β0 β1 tsq b η).map (Params.scale c) := by
  have hc2 : 0 < c ^ 2 := by positivity
  unfold calcParallelBiasCutFast
  simp only
  rw [show (c ^ 2 * tsq - c * β0 * (c * β0)) * (c ^ 2 * tsq - c * β1 * (c * β1)) +
      (k.halfN * (c * β1 * (c * β1) - c * β0 * (c * β0))) ^ 2 =
      (c ^ 2) ^ 2 * ((tsq - β0 * β0) * (tsq - β1 * β1) + (k.halfN * (β1 * β1 - β0 * β0)) ^ 2) by ring,
    psqrt_scale hc2]
  rcases psqrt ((tsq - β0 * β0) * (tsq - β1 * β1) + (k.halfN * (β1 * β1 - β0 * β0)) ^ 2) with f | ξ
  · rfl
  simp only [except_ok_bind, except_map_ok]
  rw [show 2 * (c ^ 2 * η) = c ^ 2 * (2 * η) by ring,
    show c ^ 2 * tsq + c ^ 2 * b + k.halfN * (c * β0 + c * β1) ^ 2 + c ^ 2 * ξ =
      c ^ 2 * (tsq + b + k.halfN * (β0 + β1) ^ 2 + ξ) by ring, pdiv_scale hc2.ne']
  rcases pdiv (2 * η) (tsq + b + k.halfN * (β0 + β1) ^ 2 + ξ) with f | σ
  · rfl
  simp only [except_ok_bind]
  rw [pdiv_scale_num]
  rcases pdiv ξ k.nF with f | xn
  · rfl
  simp only [except_ok_bind, except_map_ok]
  rw [show k.cst1 * ((c ^ 2 * tsq - c * β0 * (c * β0) + (c ^ 2 * tsq - c * β1 * (c * β1))) / 2 +
      c ^ 2 * xn) = c ^ 2 * (k.cst1 * ((tsq - β0 * β0 + (tsq - β1 * β1)) / 2 + xn)) by ring,
    pdiv_scale hc2.ne']
  rcases pdiv (k.cst1 * ((tsq - β0 * β0 + (tsq - β1 * β1)) / 2 + xn)) tsq with f | δ
  · rfl
  simp only [except_ok_bind, except_map_ok, Params.scale, Except.ok.injEq, Params.mk.injEq]
  exact ⟨by ring, trivial, trivial⟩

theorem calcParallelCentralCut_scale (hc : 0 < c) (β1 tsq : ℝ) :
    k.calcParallelCentralCut (c * β1) (c ^ 2 * tsq) =
      (k.calcParallelCentralCut β1 tsq).map (Params.scale c) := by
  have hc2 : 0 < c ^ 2 := by positivity
  unfold calcParallelCentralCut
  rw [show c * β1 * (c * β1) = c ^ 2 * (β1 * β1) by ring, pdiv_scale hc2.ne']
  rcases pdiv (β1 * β1) tsq with f | a
  · rfl
  simp only [except_ok_bind]
  rcases psqrt (1 - a + k.halfN * a * (k.halfN * a)) with f | s
  · rfl
  simp only [except_ok_bind]
  rw [pdiv_scale_num]
  rcases pdiv β1 (k.halfN * a + s + 1) with f | ρ
  · rfl
  simp only [except_ok_bind, except_map_ok]
  rcases pdiv 2 (k.halfN * a + s + 1) with f | σ
  · rfl
  simp only [except_ok_bind]
  rcases pdiv (k.halfN * a + s) (k.halfN * a + s - k.invN) with f | δ <;> rfl

end EllCalcCore

namespace EllCalc

variable (k : EllCalc) {c : ℝ}

theorem bind_success_scale (x : Except Fault Params) :
    ((x.map (Params.scale c)) >>= fun r => (Except.ok (.success, some r) : StrategyResult)) =
      scaleResult c (x >>= fun r => Except.ok (.success, some r)) := by
  cases x <;> rfl

theorem calcBiasCut_scale (hc : 0 < c) (β tsq : ℝ) :
    k.calcBiasCut (c * β) (c ^ 2 * tsq) = scaleResult c (k.calcBiasCut β tsq) := by
  have hc2 : 0 < c ^ 2 := by positivity
  unfold calcBiasCut
  by_cases h : 0 ≤ β
  · rw [if_pos (mul_nonneg hc.le h : c * β ≥ 0), if_pos (h : β ≥ 0)]
    simp only
    rw [show c * β * (c * β) = c ^ 2 * (β * β) by ring]
    by_cases h1 : tsq < β * β
    · rw [if_pos h1, if_pos (mul_lt_mul_of_pos_left h1 hc2)]; rfl
    · rw [if_neg h1, if_neg (not_lt.mpr (mul_le_mul_of_nonneg_left (not_lt.mp h1) hc2.le)),
        psqrt_scale hc]
      rcases psqrt tsq with f | τ
      · rfl
      simp only [except_ok_bind, except_map_ok]
      unfold EllCalcCore.calcBiasCut
      rw [show c * τ + k.helper.nF * (c * β) = c * (τ + k.helper.nF * β) by ring,
        EllCalcCore.calcBiasCutFast_scale _ hc, bind_success_scale]
  · have h' : ¬ c * β ≥ 0 := not_le.mpr (mul_neg_of_pos_of_neg hc (not_le.mp h))
    rw [if_neg h', if_neg h]; rfl

theorem pos_and_le_scale (hc : 0 < c) (β tsq : ℝ) :
    (c * β > 0 ∧ c ^ 2 * tsq ≤ c * β * (c * β)) ↔ (β > 0 ∧ tsq ≤ β * β) := by
  have hc2 : 0 < c ^ 2 := by positivity
  rw [show c * β * (c * β) = c ^ 2 * (β * β) by ring, mul_le_mul_iff_right₀ hc2, gt_iff_lt,
    mul_pos_iff_of_pos_left hc]

theorem calcParallel_scale (hc : 0 < c) (β0 β1 tsq : ℝ) :
    k.calcParallel (c * β0) (c * β1) (c ^ 2 * tsq) = scaleResult c (k.calcParallel β0 β1 tsq) := by
  unfold calcParallel
  by_cases h : β1 < β0
  · rw [if_pos h, if_pos (mul_lt_mul_of_pos_left h hc)]; rfl
  rw [if_neg h, if_neg (not_lt.mpr (mul_le_mul_of_nonneg_left (not_lt.mp h) hc.le))]
  simp only
  by_cases h1 : β1 > 0 ∧ tsq ≤ β1 * β1
  · rw [if_pos h1, if_pos ((pos_and_le_scale hc _ _).mpr h1), calcBiasCut_scale _ hc]
  · rw [if_neg h1, if_neg (fun h => h1 ((pos_and_le_scale hc _ _).mp h))]
    unfold EllCalcCore.calcParallelBiasCut
    simp only
    rw [show c * β0 * (c * β1) = c ^ 2 * (β0 * β1) by ring,
      show c ^ 2 * tsq + k.helper.nF * (c ^ 2 * (β0 * β1)) =
        c ^ 2 * (tsq + k.helper.nF * (β0 * β1)) by ring,
      EllCalcCore.calcParallelBiasCutFast_scale _ hc, bind_success_scale]

theorem calcBiasCutQ_scale (hc : 0 < c) (β tsq : ℝ) :
    k.calcBiasCutQ (c * β) (c ^ 2 * tsq) = scaleResult c (k.calcBiasCutQ β tsq) := by
  unfold calcBiasCutQ
  rw [psqrt_scale hc]
  rcases psqrt tsq with f | τ
  · rfl
  simp only [except_ok_bind, except_map_ok]
  by_cases h : τ < β
  · rw [if_pos h, if_pos (mul_lt_mul_of_pos_left h hc)]; rfl
  rw [if_neg h, if_neg (not_lt.mpr (mul_le_mul_of_nonneg_left (not_lt.mp h) hc.le))]
  rw [show c * τ + k.nF * (c * β) = c * (τ + k.nF * β) by ring]
  by_cases h1 : τ + k.nF * β ≤ 0
  · rw [if_pos h1, if_pos (mul_nonpos_of_nonneg_of_nonpos hc.le h1)]; rfl
  rw [if_neg h1, if_neg (not_le.mpr (mul_pos hc (not_le.mp h1))),
    EllCalcCore.calcBiasCutFast_scale _ hc, bind_success_scale]

theorem calcParallelQ_scale (hc : 0 < c) (β0 β1 tsq : ℝ) :
    k.calcParallelQ (c * β0) (c * β1) (c ^ 2 * tsq) = scaleResult c (k.calcParallelQ β0 β1 tsq) := by
  have hc2 : 0 < c ^ 2 := by positivity
  unfold calcParallelQ
  by_cases h : β1 < β0
  · rw [if_pos h, if_pos (mul_lt_mul_of_pos_left h hc)]; rfl
  rw [if_neg h, if_neg (not_lt.mpr (mul_le_mul_of_nonneg_left (not_lt.mp h) hc.le))]
  simp only
  by_cases h1 : β1 > 0 ∧ tsq ≤ β1 * β1
  · rw [if_pos h1, if_pos ((pos_and_le_scale hc _ _).mpr h1), calcBiasCutQ_scale _ hc]
  · rw [if_neg h1, if_neg (fun h => h1 ((pos_and_le_scale hc _ _).mp h))]
    rw [show c * β0 * (c * β1) = c ^ 2 * (β0 * β1) by ring,
      show c ^ 2 * tsq + k.nF * (c ^ 2 * (β0 * β1)) =
        c ^ 2 * (tsq + k.nF * (β0 * β1)) by ring]
    by_cases h2 : tsq + k.nF * (β0 * β1) ≤ 0
    · rw [if_pos h2, if_pos (mul_nonpos_of_nonneg_of_nonpos hc2.le h2)]; rfl
    rw [if_neg h2, if_neg (not_le.mpr (mul_pos hc2 (not_le.mp h2))),
      EllCalcCore.calcParallelBiasCutFast_scale _ hc, bind_success_scale]

theorem firstOffset_scale (bs : List (Option ℝ)) :
    firstOffset (bs.map (Option.map (c * ·))) = (firstOffset bs).map (c * ·) := by
  match bs with
  | [] => rfl
  | none :: _ => rfl
  | some _ :: _ => rfl

theorem calcSingleOrParallel_scale (hc : 0 < c) (β : CutChoice) (tsq : ℝ) :
    k.calcSingleOrParallel (β.scale c) (c ^ 2 * tsq) =
      scaleResult c (k.calcSingleOrParallel β tsq) := by
  match β with
  | .scalar b => exact k.calcBiasCut_scale hc b tsq
  | .seq bs =>
    simp only [CutChoice.scale, calcSingleOrParallel, List.length_map]
    split_ifs
    · rw [firstOffset_scale]
      rcases firstOffset bs with f | b
      · rfl
      · exact k.calcBiasCut_scale hc b tsq
    · rw [List.getElem?_map, firstOffset_scale]
      rcases bs[1]? with _ | _ | b1
      · rfl
      · rfl
      · rcases firstOffset bs with f | b0
        · rfl
        · exact k.calcParallel_scale hc b0 b1 tsq

theorem calcSingleOrParallelQ_scale (hc : 0 < c) (β : CutChoice) (tsq : ℝ) :
    k.calcSingleOrParallelQ (β.scale c) (c ^ 2 * tsq) =
      scaleResult c (k.calcSingleOrParallelQ β tsq) := by
  match β with
  | .scalar b => exact k.calcBiasCutQ_scale hc b tsq
  | .seq bs =>
    simp only [CutChoice.scale, calcSingleOrParallelQ, List.length_map]
    split_ifs
    · rw [firstOffset_scale]
      rcases firstOffset bs with f | b
      · rfl
      · exact k.calcBiasCutQ_scale hc b tsq
    · rw [List.getElem?_map, firstOffset_scale]
      rcases bs[1]? with _ | _ | b1
      · rfl
      · rfl
      · rcases firstOffset bs with f | b0
        · rfl
        · exact k.calcParallelQ_scale hc b0 b1 tsq

theorem calcCentral_scale (hc : 0 < c) (β : CutChoice) (tsq : ℝ) :
    k.calcSingleOrParallelCentralCut (β.scale c) (c ^ 2 * tsq) =
      scaleResult c (k.calcSingleOrParallelCentralCut β tsq) := by
  have hc2 : 0 < c ^ 2 := by positivity
  have hcen : (do
      let tau ← psqrt (c ^ 2 * tsq)
      Except.ok (CutStatus.success, some (k.helper.calcCentralCut tau)) : StrategyResult) =
      scaleResult c (do
        let tau ← psqrt tsq
        Except.ok (CutStatus.success, some (k.helper.calcCentralCut tau))) := by
    rw [psqrt_scale hc]
    rcases psqrt tsq with f | τ
    · rfl
    · simp only [except_map_ok, except_ok_bind, scaleResult, EllCalcCore.calcCentralCut,
        Option.map, Params.scale]
      rw [show k.helper.cst0 * (c * τ) = c * (k.helper.cst0 * τ) by ring]
  match β with
  | .scalar b => exact hcen
  | .seq bs =>
    simp only [CutChoice.scale, calcSingleOrParallelCentralCut, List.length_map]
    split_ifs
    · exact hcen
    · rw [List.getElem?_map]
      rcases bs[1]? with _ | _ | b1
      · rfl
      · rfl
      · simp only [Option.map]
        rw [show c * b1 * (c * b1) = c ^ 2 * (b1 * b1) by ring]
        by_cases h : b1 < 0
        · rw [if_pos h, if_pos (mul_neg_of_pos_of_neg hc h)]; rfl
        rw [if_neg h, if_neg (not_lt.mpr (mul_nonneg hc.le (not_lt.mp h)))]
        by_cases h1 : tsq ≤ b1 * b1
        · rw [if_pos h1, if_pos (mul_le_mul_of_nonneg_left h1 hc2.le)]; exact hcen
        · rw [if_neg h1, if_neg (not_le.mpr (mul_lt_mul_of_pos_left (not_le.mp h1) hc2)),
            EllCalcCore.calcParallelCentralCut_scale _ hc, bind_success_scale]

end EllCalc

end Ellalgo
