import Verif.Model.Lmi
import Verif.Props.Ldlt
import Verif.Props.Soundness

/-! # C43–C46: the LMI oracles -/

namespace Ellalgo

open Finset Spec Matrix CuttingPlane

variable {K : Type*} [Field K] [LinearOrder K] [IsStrictOrderedRing K] {m q : ℕ}

/-- The matrix `B - Σ x_k F_k` of the LMI. -/
def lmiMat (matF : Fin q → Matrix (Fin m) (Fin m) K) (matB : Matrix (Fin m) (Fin m) K) (x : Fin q → K) :
    Matrix (Fin m) (Fin m) K := matB - ∑ k, x k • matF k

/-- The matrix `Σ x_k F_k`. -/
def lmi0Mat (matF : Fin q → Matrix (Fin m) (Fin m) K) (x : Fin q → K) : Matrix (Fin m) (Fin m) K :=
  ∑ k, x k • matF k

omit [LinearOrder K] [IsStrictOrderedRing K] in
theorem lmi0Mat_isSymm {matF : Fin q → Matrix (Fin m) (Fin m) K} (hF : ∀ k, (matF k).IsSymm) (x : Fin q → K) :
    (lmi0Mat matF x).IsSymm := by
  unfold lmi0Mat Matrix.IsSymm
  rw [transpose_sum]
  exact Finset.sum_congr rfl fun k _ => by rw [transpose_smul, (hF k).eq]

omit [LinearOrder K] [IsStrictOrderedRing K] in
theorem lmiMat_isSymm {matF : Fin q → Matrix (Fin m) (Fin m) K} {matB : Matrix (Fin m) (Fin m) K}
    (hF : ∀ k, (matF k).IsSymm) (hB : matB.IsSymm) (x : Fin q → K) : (lmiMat matF matB x).IsSymm :=
  hB.sub (lmi0Mat_isSymm hF x)

omit [LinearOrder K] [IsStrictOrderedRing K] in
theorem lmi0_getElem (matF : Fin q → Matrix (Fin m) (Fin m) K) (x : Fin q → K) :
    LMI0Oracle.getElem matF x = toArr2 (lmi0Mat matF x) := by
  funext i j
  unfold LMI0Oracle.getElem toArr2
  split_ifs with h
  · simp [lmi0Mat, Matrix.sum_apply, mul_comm]
  · simp

omit [LinearOrder K] [IsStrictOrderedRing K] in
theorem lmi_getElem (matF : Fin q → Matrix (Fin m) (Fin m) K) (matB : Matrix (Fin m) (Fin m) K) (x : Fin q → K) :
    LMIOracle.getElem matF matB x = toArr2 (lmiMat matF matB x) := by
  funext i j
  unfold LMIOracle.getElem toArr2
  simp only
  split_ifs with h
  · simp [lmiMat, Matrix.sum_apply, mul_comm]
  · simp

omit [LinearOrder K] [IsStrictOrderedRing K] in
theorem quad_lmi0 (matF : Fin q → Matrix (Fin m) (Fin m) K) (x : Fin q → K) (v : Fin m → K) :
    v ⬝ᵥ (lmi0Mat matF x *ᵥ v) = (fun k => v ⬝ᵥ (matF k *ᵥ v)) ⬝ᵥ x := by
  unfold lmi0Mat
  rw [sum_mulVec, dotProduct_sum, dotProduct]
  exact Finset.sum_congr rfl fun k _ => by rw [smul_mulVec, dotProduct_smul, smul_eq_mul, mul_comm]

omit [LinearOrder K] [IsStrictOrderedRing K] in
theorem quad_lmi (matF : Fin q → Matrix (Fin m) (Fin m) K) (matB : Matrix (Fin m) (Fin m) K) (x : Fin q → K)
    (v : Fin m → K) :
    v ⬝ᵥ (lmiMat matF matB x *ᵥ v) = v ⬝ᵥ (matB *ᵥ v) - (fun k => v ⬝ᵥ (matF k *ᵥ v)) ⬝ᵥ x := by
  rw [← quad_lmi0]
  unfold lmiMat lmi0Mat
  rw [sub_mulVec, dotProduct_sub]

/-- **C43.** `LMIOracle.assess_feas(x)` never raises; it returns `None` iff `B - Σ x_k F_k` is positive definite; otherwise it returns `(g, ep)` with
`ep ≥ 0` and `gᵀ(y - x) + ep ≤ 0` for every `y` with `B - Σ y_k F_k` positive semidefinite. The manager may have been used before. -/
theorem C43_lmi_separates (matF : Fin q → Matrix (Fin m) (Fin m) K) (matB : Matrix (Fin m) (Fin m) K)
    (hF : ∀ k, (matF k).IsSymm) (hB : matB.IsSymm) (mgr : LDLTMgr K) (hm : mgr.ndim = m) (x : Fin q → K) :
    (∃ mgr', LMIOracle.assessFeas matF matB mgr x = (mgr', .ok none) ∧ mgr'.ndim = m ∧
      QuadPos (lmiMat matF matB x)) ∨
    (∃ mgr' g ep, LMIOracle.assessFeas matF matB mgr x = (mgr', .ok (some (g, ep))) ∧ mgr'.ndim = m ∧
      ¬ QuadPos (lmiMat matF matB x) ∧ 0 ≤ ep ∧
      ∀ y, QuadNonneg (lmiMat matF matB y) → g ⬝ᵥ (y - x) + ep ≤ 0) := by
  subst hm
  have hdec := C37_factor_decides_spd mgr (LMIOracle.getElem matF matB x)
  rw [lmi_getElem, symOf_toArr2 (lmiMat_isSymm hF hB x)] at hdec
  unfold LMIOracle.assessFeas
  simp only
  rw [lmi_getElem]
  rcases hb : (mgr.factor (toArr2 (lmiMat matF matB x))).2.1 with _ | _
  · right
    obtain ⟨m2, ep, h1, h2, h3, -, -, -, h5, h6, h7⟩ := C39_witness_certifies mgr _ hb
    rw [symOf_toArr2 (lmiMat_isSymm hF hB x)] at h6
    have hnd : m2.ndim = mgr.ndim := by
      have := congrArg Prod.fst h1
      unfold LDLTMgr.witness at this
      split_ifs at this
      · rw [← show _ = m2 from this]; rfl
      · rw [← show _ = m2 from this]; rfl
    rw [h1]
    refine ⟨m2, _, ep, by simp; rfl, hnd, fun hq => ?_, h2, fun y hy => ?_⟩
    · rw [hdec.mpr hq] at hb; cases hb
    · set v := sliceVec mgr.ndim m2.wit m2.pos.1 m2.pos.2
      have hg : (fun k => m2.symQuad (toArr2 (matF k))) = fun k => v ⬝ᵥ (matF k *ᵥ v) := funext fun k => h7 (matF k)
      have hy2 := hy v
      rw [quad_lmi] at hy2 h6
      rw [hg, dotProduct_sub]
      linarith
  · left
    exact ⟨(mgr.factor (toArr2 (lmiMat matF matB x))).1, by simp, rfl, hdec.mp hb⟩

/-- **C44.** The same for `LMI0Oracle` and `Σ x_k F_k`. -/
theorem C44_lmi0_separates (matF : Fin q → Matrix (Fin m) (Fin m) K)
    (hF : ∀ k, (matF k).IsSymm) (mgr : LDLTMgr K) (hm : mgr.ndim = m) (x : Fin q → K) :
    (∃ mgr', LMI0Oracle.assessFeas matF mgr x = (mgr', .ok none) ∧ mgr'.ndim = m ∧
      QuadPos (lmi0Mat matF x)) ∨
    (∃ mgr' g ep, LMI0Oracle.assessFeas matF mgr x = (mgr', .ok (some (g, ep))) ∧ mgr'.ndim = m ∧
      ¬ QuadPos (lmi0Mat matF x) ∧ 0 ≤ ep ∧
      ∀ y, QuadNonneg (lmi0Mat matF y) → g ⬝ᵥ (y - x) + ep ≤ 0) := by
  subst hm
  have hdec := C37_factor_decides_spd mgr (LMI0Oracle.getElem matF x)
  rw [lmi0_getElem, symOf_toArr2 (lmi0Mat_isSymm hF x)] at hdec
  unfold LMI0Oracle.assessFeas
  simp only
  rw [lmi0_getElem]
  rcases hb : (mgr.factor (toArr2 (lmi0Mat matF x))).2.1 with _ | _
  · right
    obtain ⟨m2, ep, h1, h2, h3, -, -, -, h5, h6, h7⟩ := C39_witness_certifies mgr _ hb
    rw [symOf_toArr2 (lmi0Mat_isSymm hF x)] at h6
    have hnd : m2.ndim = mgr.ndim := by
      have := congrArg Prod.fst h1
      unfold LDLTMgr.witness at this
      split_ifs at this
      · rw [← show _ = m2 from this]; rfl
      · rw [← show _ = m2 from this]; rfl
    rw [h1]
    refine ⟨m2, _, ep, by simp; rfl, hnd, fun hq => ?_, h2, fun y hy => ?_⟩
    · rw [hdec.mpr hq] at hb; cases hb
    · set v := sliceVec mgr.ndim m2.wit m2.pos.1 m2.pos.2
      have hg : (fun k => -m2.symQuad (toArr2 (matF k))) = -fun k => v ⬝ᵥ (matF k *ᵥ v) :=
        funext fun k => congrArg Neg.neg (h7 (matF k))
      have hy2 := hy v
      rw [quad_lmi0] at hy2 h6
      rw [hg, neg_dotProduct, dotProduct_sub]
      linarith
  · left
    exact ⟨(mgr.factor (toArr2 (lmi0Mat matF x))).1, by simp, rfl, hdec.mp hb⟩

omit [IsStrictOrderedRing K] in
/-- **C45.** `LMIOldOracle` and `LMIOracle` return the same result and leave the manager in the same state, from every state of the manager; hence after
every history of calls. -/
theorem C45_old_and_new_agree (matF : Fin q → Matrix (Fin m) (Fin m) K) (matB : Matrix (Fin m) (Fin m) K)
    (mgr : LDLTMgr K) (x : Fin q → K) :
    LMIOldOracle.assessFeas matF matB mgr x = LMIOracle.assessFeas matF matB mgr x := by
  unfold LMIOldOracle.assessFeas LMIOracle.assessFeas LDLTMgr.factorize
  simp only
  rw [lmi_getElem]
  unfold lmiMat
  rcases (mgr.factor (toArr2 (matB - ∑ k, x k • matF k))).2.1 with _ | _ <;> simp

/-! ### C46 -/

/-- `LMIOracle` as an oracle of the cutting-plane loops. -/
noncomputable def lmiOmega (matF : Fin q → Matrix (Fin m) (Fin m) ℝ) (matB : Matrix (Fin m) (Fin m) ℝ) :
    OracleFeas (LDLTMgr ℝ) (Vec q) (Cut q) :=
  fun mgr x => ((LMIOracle.assessFeas matF matB mgr x).1,
    (LMIOracle.assessFeas matF matB mgr x).2.map fun r => r.map fun c => (c.1, .scalar c.2))

theorem lmiOmega_separating (matF : Fin q → Matrix (Fin m) (Fin m) ℝ) (matB : Matrix (Fin m) (Fin m) ℝ)
    (hF : ∀ k, (matF k).IsSymm) (hB : matB.IsSymm) :
    SeparatingOracle (fun mgr : LDLTMgr ℝ => mgr.ndim = m) {y | QuadNonneg (lmiMat matF matB y)} (lmiOmega matF matB) where
  inv mgr x hm := by
    rcases C43_lmi_separates matF matB hF hB mgr hm x with ⟨m', h, h2, -⟩ | ⟨m', g, ep, h, h2, -⟩ <;>
      simp only [lmiOmega, h, h2]
  cut mgr x o' cut hm ha := by
    rcases C43_lmi_separates matF matB hF hB mgr hm x with ⟨m', h, -⟩ | ⟨m', g, ep, h, -, -, h3, h4⟩
    · simp [lmiOmega, h, Except.map] at ha
    · simp only [lmiOmega, h, Except.map, Option.map_some, Prod.mk.injEq, Except.ok.injEq, Option.some.injEq] at ha
      obtain ⟨-, rfl⟩ := ha
      exact ⟨h3, fun y hy => h4 y hy⟩
  accept mgr x o' hm ha := by
    rcases C43_lmi_separates matF matB hF hB mgr hm x with ⟨m', h, -, h2⟩ | ⟨m', g, ep, h, -⟩
    · intro v
      by_cases hv : v = 0
      · subst hv; simp
      · exact (h2 v hv).le
    · simp [lmiOmega, h, Except.map] at ha

/-- **C46.** `cutting_plane_feas(LMIOracle(F, B), Ell)`: if it returns a point `x`, then `B - Σ x_k F_k` is positive definite; if it stops because an update returned `NoSoln`, then no point of
the initial ellipsoid satisfies the LMI (even weakly). -/
theorem C46_lmi_end_to_end (matF : Fin q → Matrix (Fin m) (Fin m) ℝ) (matB : Matrix (Fin m) (Fin m) ℝ)
    (hF : ∀ k, (matF k).IsSymm) (hB : matB.IsSymm) (e : Ell q) (he : e.WF) (opts : Options ℝ) :
    (∀ o' e' x k, feas (lmiOmega matF matB) (Ell.space q) ltReal (LMIOracle.init matB) e opts =
      (o', e', .ok (some x, k)) → QuadPos (lmiMat matF matB x)) ∧
    (∀ l o1 e1 o2 cut e2, FeasTrace (lmiOmega matF matB) (Ell.space q) ltReal opts.tolerance (LMIOracle.init matB) e l o1 e1 →
      lmiOmega matF matB o1 e1.xc = (o2, .ok (some cut)) → e1.updateBiasCut cut = (e2, .ok .noSoln) →
      ∀ y ∈ e.region, ¬ QuadNonneg (lmiMat matF matB y)) := by
  have hω := lmiOmega_separating matF matB hF hB
  constructor
  · intro o' e' x k h
    obtain ⟨-, -, l, o1, ht, -, ha⟩ := C20_feas_returns_accepted _ _ _ _ _ _ _ _ _ _ h
    have hi : o1.ndim = m := ht.inv_oracle hω.toCuttingOracle rfl
    rcases C43_lmi_separates matF matB hF hB o1 hi x with ⟨m', h, -, h2⟩ | ⟨m', g, ep, h, -⟩
    · exact h2
    · simp [lmiOmega, h, Except.map] at ha
  · intro l o1 e1 o2 cut e2 ht ha hu y hy hq
    have := C22_noSoln_inside hω.toCuttingOracle (LMIOracle.init matB) rfl e he opts.tolerance ht ha hu
    have hmem : y ∈ {y | QuadNonneg (lmiMat matF matB y)} ∩ e.region := ⟨hq, hy⟩
    rw [this] at hmem
    exact hmem

/-- The documentation example of `LMIOldOracle`: `B = 2I`, `F1 = I`, `F2` the exchange matrix. -/
def docF (k : Fin 2) : Matrix (Fin 2) (Fin 2) ℚ := if k = 0 then 1 else !![0, 1; 1, 0]

/-- C43 to C45 apply; the point `(0, 0)` is accepted, `(3, 0)` is cut off with `ep = 1`, `g = (1, 0)`. -/
example : (∀ k, (docF k).IsSymm) ∧ ((2 : ℚ) • (1 : Matrix (Fin 2) (Fin 2) ℚ)).IsSymm ∧
    (LMIOracle.assessFeas docF ((2 : ℚ) • 1) (LDLTMgr.init 2) ![0, 0]).2.toOption.map Option.isNone = some true ∧
    ((LMIOracle.assessFeas docF ((2 : ℚ) • 1) (LDLTMgr.init 2) ![3, 0]).2.toOption.bind id).map
      (fun c => (c.1 0, c.1 1, c.2)) = some (1, 0, 1) ∧
    ((LMI0Oracle.assessFeas docF (LDLTMgr.init 2) ![-1, 0]).2.toOption.bind id).map
      (fun c => (c.1 0, c.1 1, c.2)) = some (-1, 0, 1) := by
  refine ⟨?_, ?_, ?_, ?_, ?_⟩
  · intro k; fin_cases k
    · exact isSymm_one
    · ext i j; fin_cases i <;> fin_cases j <;> rfl
  · exact isSymm_one.smul _
  all_goals decide +kernel

/-- C46 applies, accepting side: `B = I`, `F = 0` on the unit disc; the centre is returned at once. -/
example : ∃ o' e', feas (lmiOmega (fun _ : Fin 2 => (0 : Matrix (Fin 2) (Fin 2) ℝ)) 1) (Ell.space 2) ltReal
    (LMIOracle.init (1 : Matrix (Fin 2) (Fin 2) ℝ)) unitDisc ⟨2000, 1⟩ = (o', e', .ok (some unitDisc.xc, 0)) := by
  rcases C43_lmi_separates (fun _ : Fin 2 => (0 : Matrix (Fin 2) (Fin 2) ℝ)) 1 (fun _ => isSymm_zero) isSymm_one
    (LMIOracle.init (1 : Matrix (Fin 2) (Fin 2) ℝ)) rfl unitDisc.xc with ⟨m', h, -⟩ | ⟨m', g, ep, -, -, h, -⟩
  · refine ⟨m', unitDisc, ?_⟩
    simp [feas, feasLoop, lmiOmega, h, Except.map, Ell.space]
  · refine absurd (fun v hv => ?_) h
    simp only [lmiMat, smul_zero, Finset.sum_const_zero, sub_zero, one_mulVec]
    exact lt_of_le_of_ne (Finset.sum_nonneg fun _ _ => mul_self_nonneg _)
      fun h => hv (dotProduct_self_eq_zero.mp h.symm)

/-- C46 applies, rejecting side: `-3 - x₀ ≥ 0` on the unit disc; the first update returns `NoSoln`. -/
example : ∃ o2 cut e2, lmiOmega (fun k : Fin 2 => if k = 0 then (1 : Matrix (Fin 1) (Fin 1) ℝ) else 0) !![-3]
      (LMIOracle.init (!![-3] : Matrix (Fin 1) (Fin 1) ℝ)) unitDisc.xc = (o2, .ok (some cut)) ∧
    unitDisc.updateBiasCut cut = (e2, .ok .noSoln) := by
  have h : ∃ o2, lmiOmega (fun k : Fin 2 => if k = 0 then (1 : Matrix (Fin 1) (Fin 1) ℝ) else 0) !![-3]
      (LMIOracle.init (!![-3] : Matrix (Fin 1) (Fin 1) ℝ)) unitDisc.xc = (o2, .ok (some (![1, 0], .scalar 3))) := by
    refine ⟨_, Prod.ext rfl ?_⟩
    simp [lmiOmega, LMIOracle.assessFeas, LMIOracle.init, LDLTMgr.init, LDLTMgr.factor, LDLTMgr.factorLoop,
      LDLTMgr.row, forRange, forUp, LMIOracle.getElem, toArr2, unitDisc, LDLTMgr.isSpd, LDLTMgr.witness,
      forDown, Except.map, LDLTMgr.symQuad, set1, set2]
    funext k; fin_cases k <;> simp
  obtain ⟨o2, h⟩ := h
  refine ⟨o2, _, _, h, Ell.updateCore_none e1_ne_zero unitDisc_omega_ne ?_⟩
  rw [unitDisc_tsq]
  exact EllCalc.calcBiasCut_noSoln (by norm_num) (by norm_num)

end Ellalgo
