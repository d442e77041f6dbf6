import Verif.Model.Lmi2
import Verif.Props.Lmi

/-! # C84: the oracles of `lmi2_oracle.tpy` and `lmi3_oracle.tpy` -/

namespace Ellalgo

open Finset Spec Matrix CuttingPlane

variable {K : Type*} [Field K] [LinearOrder K] [IsStrictOrderedRing K] {m q : ℕ}

omit [LinearOrder K] [IsStrictOrderedRing K] in
theorem lmi2_getElem (matF : Fin q → Matrix (Fin m) (Fin m) K) (U : Matrix (Fin m) (Fin m) K) (x : Fin q → K) :
    LMI2Oracle.getElem matF U x = toArr2 (lmiMat matF U x) := lmi_getElem matF U x

omit [LinearOrder K] [IsStrictOrderedRing K] in
theorem lmi2_getS (matF : Fin q → Matrix (Fin m) (Fin m) K) (x : Fin q → K) :
    LMI2Oracle.getS matF x = toArr2 (lmi0Mat matF x) := lmi0_getElem matF x

/-- What a failed factorisation of a symmetric matrix leaves behind, in the form used by the oracles. -/
theorem witness_of_fail {A : Matrix (Fin m) (Fin m) K} (hA : A.IsSymm) (mgr : LDLTMgr K) (hm : mgr.ndim = m)
    (h : (mgr.factor (toArr2 A)).2.1 = false) :
    ∃ m2 ep v, (mgr.factor (toArr2 A)).1.witness = (m2, .ok ep) ∧ m2.ndim = m ∧ 0 ≤ ep ∧ v ≠ 0 ∧ v ⬝ᵥ (A *ᵥ v) = -ep ∧
      ∀ B : Matrix (Fin m) (Fin m) K, m2.symQuad (toArr2 B) = v ⬝ᵥ (B *ᵥ v) := by
  subst hm
  obtain ⟨m2, ep, h1, h2, -, -, -, -, h5, h6, h7⟩ := C39_witness_certifies mgr _ h
  rw [symOf_toArr2 hA] at h6
  refine ⟨m2, ep, _, h1, ?_, h2, h5, h6, h7⟩
  have := congrArg Prod.fst h1
  unfold LDLTMgr.witness at this
  split_ifs at this
  · rw [← show _ = m2 from this]; rfl
  · rw [← show _ = m2 from this]; rfl

/-- **C84.** `LMI2Oracle.assess_feas(x)` never raises; it returns `None` iff both `Σ x_k F_k` and `U - Σ x_k F_k` are positive definite; otherwise it returns a parallel cut `(g, (f, fj))` with `f ≥ 0`
and `gᵀ(y - x) + f ≤ 0 ≤ gᵀ(y - x) + fj` for every `y` with `0 ≤ Σ y_k F_k ≤ U`. The manager may have been used before. -/
theorem C84_lmi2_separates (matF : Fin q → Matrix (Fin m) (Fin m) K) (U : Matrix (Fin m) (Fin m) K)
    (hF : ∀ k, (matF k).IsSymm) (hU : U.IsSymm) (mgr : LDLTMgr K) (hm : mgr.ndim = m) (x : Fin q → K) :
    (∃ mgr', LMI2Oracle.assessFeas matF U mgr x = (mgr', .ok none) ∧ mgr'.ndim = m ∧
      QuadPos (lmi0Mat matF x) ∧ QuadPos (U - lmi0Mat matF x)) ∨
    (∃ mgr' g f fj, LMI2Oracle.assessFeas matF U mgr x = (mgr', .ok (some (g, f, fj))) ∧ mgr'.ndim = m ∧
      ¬ (QuadPos (lmi0Mat matF x) ∧ QuadPos (U - lmi0Mat matF x)) ∧ 0 ≤ f ∧
      ∀ y, QuadNonneg (lmi0Mat matF y) → QuadNonneg (U - lmi0Mat matF y) → g ⬝ᵥ (y - x) + f ≤ 0 ∧ 0 ≤ g ⬝ᵥ (y - x) + fj) := by
  have hUm : ∀ y, U - lmi0Mat matF y = lmiMat matF U y := fun _ => rfl
  have hd1 := C37_factor_decides_spd mgr (toArr2 (lmiMat matF U x))
  unfold LMI2Oracle.assessFeas
  simp only [hUm]
  rw [lmi2_getElem, lmi2_getS]
  rcases hb : (mgr.factor (toArr2 (lmiMat matF U x))).2.1 with _ | _
  · right
    obtain ⟨m2, ep, v, h1, h2, h3, h4, h5, h6⟩ := witness_of_fail (lmiMat_isSymm hF hU x) mgr hm hb
    subst hm
    rw [symOf_toArr2 (lmiMat_isSymm hF hU x)] at hd1
    simp only [h1, if_true]
    refine ⟨m2, _, _, _, rfl, h2, fun hq => ?_, h3, fun y hy0 hy1 => ?_⟩
    · rw [hd1.mpr hq.2] at hb; cases hb
    · have hg : (fun k => m2.symQuad (toArr2 (matF k))) = fun k => v ⬝ᵥ (matF k *ᵥ v) := funext fun k => h6 (matF k)
      have a := hy0 v
      have b := hy1 v
      rw [quad_lmi] at b h5
      rw [quad_lmi0] at a
      rw [hg, h6 U, dotProduct_sub]
      constructor <;> linarith
  · have hnd : (mgr.factor (toArr2 (lmiMat matF U x))).1.ndim = m := hm
    have hd2 : ((mgr.factor (toArr2 (lmiMat matF U x))).1.factor (toArr2 (lmi0Mat matF x))).2.1 = true ↔
        QuadPos (symOf mgr.ndim (toArr2 (lmi0Mat matF x))) :=
      C37_factor_decides_spd (mgr.factor (toArr2 (lmiMat matF U x))).1 (toArr2 (lmi0Mat matF x))
    simp only [Bool.true_eq_false, if_false]
    rcases hb2 : ((mgr.factor (toArr2 (lmiMat matF U x))).1.factor (toArr2 (lmi0Mat matF x))).2.1 with _ | _
    · right
      obtain ⟨m2, ep, v, h1, h2, h3, h4, h5, h6⟩ := witness_of_fail (lmi0Mat_isSymm hF x) _ hnd hb2
      subst hm
      rw [symOf_toArr2 (lmi0Mat_isSymm hF x)] at hd2
      simp only [h1, if_true]
      refine ⟨m2, _, _, _, rfl, h2, fun hq => ?_, h3, fun y hy0 hy1 => ?_⟩
      · rw [hd2.mpr hq.1] at hb2; cases hb2
      · have hg : (fun k => -m2.symQuad (toArr2 (matF k))) = -fun k => v ⬝ᵥ (matF k *ᵥ v) :=
          funext fun k => congrArg Neg.neg (h6 (matF k))
        have a := hy0 v
        have b := hy1 v
        rw [quad_lmi] at b
        rw [quad_lmi0] at a h5
        rw [hg, h6 U, neg_dotProduct, dotProduct_sub]
        constructor <;> linarith
    · left
      subst hm
      rw [symOf_toArr2 (lmiMat_isSymm hF hU x)] at hd1
      rw [symOf_toArr2 (lmi0Mat_isSymm hF x)] at hd2
      exact ⟨((mgr.factor (toArr2 (lmiMat matF U x))).1.factor (toArr2 (lmi0Mat matF x))).1, by simp, hnd, hd2.mp hb2, hd1.mp hb⟩

omit [LinearOrder K] [IsStrictOrderedRing K] in
theorem symQuad_neg (mgr : LDLTMgr K) (A : Matrix (Fin m) (Fin m) K) : mgr.symQuad (toArr2 (-A)) = -mgr.symQuad (toArr2 A) := by
  have h : ∀ i j, toArr2 (-A) i j = -toArr2 A i j := fun i j => by
    unfold toArr2; split_ifs <;> simp
  unfold LDLTMgr.symQuad
  simp only [h, neg_mul, Finset.sum_neg_distrib, mul_neg]

omit [IsStrictOrderedRing K] in
/-- **C84.** `lmi3_oracle(F, B)` (for `B ≤ Σ x_k F_k`) is `LMIOracle(-F, -B)`: from every state of the manager both return the same result and leave the same state. -/
theorem C84_lmi3_is_lmi (matF : Fin q → Matrix (Fin m) (Fin m) K) (matB : Matrix (Fin m) (Fin m) K) (mgr : LDLTMgr K) (x : Fin q → K) :
    LMI3Oracle.assessFeas matF matB mgr x = LMIOracle.assessFeas (fun k => -matF k) (-matB) mgr x := by
  have h : LMI3Oracle.getElem matF matB x = LMIOracle.getElem (fun k => -matF k) (-matB) x := by
    funext i j
    unfold LMI3Oracle.getElem LMIOracle.getElem
    simp only
    rw [sub_eq_add_neg, ← Finset.sum_neg_distrib]
    congr 1
    refine Finset.sum_congr rfl fun k _ => ?_
    unfold toArr2; split_ifs <;> simp
  unfold LMI3Oracle.assessFeas LMIOracle.assessFeas
  simp only [h, symQuad_neg]
  rfl

/-- **C84.** Hence `lmi3_oracle` accepts `x` iff `Σ x_k F_k - B` is positive definite, and its cuts keep every `y` with `Σ y_k F_k - B` positive semidefinite. -/
theorem C84_lmi3_separates (matF : Fin q → Matrix (Fin m) (Fin m) K) (matB : Matrix (Fin m) (Fin m) K)
    (hF : ∀ k, (matF k).IsSymm) (hB : matB.IsSymm) (mgr : LDLTMgr K) (hm : mgr.ndim = m) (x : Fin q → K) :
    (∃ mgr', LMI3Oracle.assessFeas matF matB mgr x = (mgr', .ok none) ∧ mgr'.ndim = m ∧ QuadPos (lmi0Mat matF x - matB)) ∨
    (∃ mgr' g ep, LMI3Oracle.assessFeas matF matB mgr x = (mgr', .ok (some (g, ep))) ∧ mgr'.ndim = m ∧
      ¬ QuadPos (lmi0Mat matF x - matB) ∧ 0 ≤ ep ∧ ∀ y, QuadNonneg (lmi0Mat matF y - matB) → g ⬝ᵥ (y - x) + ep ≤ 0) := by
  have e : ∀ y, lmiMat (fun k => -matF k) (-matB) y = lmi0Mat matF y - matB := fun y => by
    unfold lmiMat lmi0Mat
    rw [sub_eq_add_neg, ← Finset.sum_neg_distrib, neg_add_eq_sub]
    simp
  have := C43_lmi_separates (fun k => -matF k) (-matB) (fun k => (hF k).neg) hB.neg mgr hm x
  simp only [e] at this
  rw [C84_lmi3_is_lmi]
  exact this

/-- `LMI2Oracle` as an oracle of the cutting-plane loops; its cuts are parallel cuts. -/
noncomputable def lmi2Omega (matF : Fin q → Matrix (Fin m) (Fin m) ℝ) (U : Matrix (Fin m) (Fin m) ℝ) :
    OracleFeas (LDLTMgr ℝ) (Vec q) (Cut q) :=
  fun mgr x => ((LMI2Oracle.assessFeas matF U mgr x).1,
    (LMI2Oracle.assessFeas matF U mgr x).2.map fun r => r.map fun c => (c.1, .pair c.2.1 c.2.2))

theorem lmi2Omega_separating (matF : Fin q → Matrix (Fin m) (Fin m) ℝ) (U : Matrix (Fin m) (Fin m) ℝ)
    (hF : ∀ k, (matF k).IsSymm) (hU : U.IsSymm) :
    SeparatingOracle (fun mgr : LDLTMgr ℝ => mgr.ndim = m) {y | QuadNonneg (lmi0Mat matF y) ∧ QuadNonneg (U - lmi0Mat matF y)} (lmi2Omega matF U) where
  inv mgr x hm := by
    rcases C84_lmi2_separates matF U hF hU mgr hm x with ⟨m', h, h2, -⟩ | ⟨m', g, f, fj, h, h2, -⟩ <;>
      simp only [lmi2Omega, h, h2]
  cut mgr x o' cut hm ha := by
    rcases C84_lmi2_separates matF U hF hU mgr hm x with ⟨m', h, -⟩ | ⟨m', g, f, fj, h, -, -, h3, h4⟩
    · simp [lmi2Omega, h, Except.map] at ha
    · simp only [lmi2Omega, h, Except.map, Option.map_some, Prod.mk.injEq, Except.ok.injEq, Option.some.injEq] at ha
      obtain ⟨-, rfl⟩ := ha
      refine ⟨fun b hb => ?_, fun y hy => h4 y hy.1 hy.2⟩
      simp only [List.head?_cons, Option.some.injEq] at hb
      rw [← hb]; exact h3
  accept mgr x o' hm ha := by
    rcases C84_lmi2_separates matF U hF hU mgr hm x with ⟨m', h, -, h2, h3⟩ | ⟨m', g, f, fj, h, -⟩
    · constructor
      all_goals
        intro v
        by_cases hv : v = 0
        · subst hv; simp
      · exact (h2 v hv).le
      · exact (h3 v hv).le
    · simp [lmi2Omega, h, Except.map] at ha

/-- **C84, end to end.** `cutting_plane_feas(LMI2Oracle(F, U), Ell)`: if it returns `x`, then `Σ x_k F_k` and `U - Σ x_k F_k` are positive definite; if it stops because an update returned `NoSoln`,
no point of the initial ellipsoid satisfies `0 ≤ Σ y_k F_k ≤ U`. -/
theorem C84_lmi2_end_to_end (matF : Fin q → Matrix (Fin m) (Fin m) ℝ) (U : Matrix (Fin m) (Fin m) ℝ)
    (hF : ∀ k, (matF k).IsSymm) (hU : U.IsSymm) (e : Ell q) (he : e.WF) (opts : Options ℝ) :
    (∀ o' e' x k, feas (lmi2Omega matF U) (Ell.space q) ltReal (LMI2Oracle.init U) e opts =
      (o', e', .ok (some x, k)) → QuadPos (lmi0Mat matF x) ∧ QuadPos (U - lmi0Mat matF x)) ∧
    (∀ l o1 e1 o2 cut e2, FeasTrace (lmi2Omega matF U) (Ell.space q) ltReal opts.tolerance (LMI2Oracle.init U) e l o1 e1 →
      lmi2Omega matF U o1 e1.xc = (o2, .ok (some cut)) → e1.updateBiasCut cut = (e2, .ok .noSoln) →
      ∀ y ∈ e.region, ¬ (QuadNonneg (lmi0Mat matF y) ∧ QuadNonneg (U - lmi0Mat matF y))) := by
  have hω := lmi2Omega_separating matF U hF hU
  constructor
  · intro o' e' x k h
    obtain ⟨-, -, l, o1, ht, -, ha⟩ := C20_feas_returns_accepted _ _ _ _ _ _ _ _ _ _ h
    have hi : o1.ndim = m := ht.inv_oracle hω.toCuttingOracle rfl
    rcases C84_lmi2_separates matF U hF hU o1 hi x with ⟨m', h, -, h2⟩ | ⟨m', g, f, fj, h, -⟩
    · exact h2
    · simp [lmi2Omega, h, Except.map] at ha
  · intro l o1 e1 o2 cut e2 ht ha hu y hy hq
    have := C22_noSoln_inside hω.toCuttingOracle (LMI2Oracle.init U) rfl e he opts.tolerance ht ha hu
    have hmem : y ∈ {y | QuadNonneg (lmi0Mat matF y) ∧ QuadNonneg (U - lmi0Mat matF y)} ∩ e.region := ⟨hq, hy⟩
    rw [this] at hmem
    exact hmem

/-- C84 applies: `F1 = I`, `F2` the exchange matrix, `U = 2I`: `(1, 0)` is accepted, `(3, 0)` and `(-1, 0)` are cut off by parallel cuts. -/
example : (∀ k, (docF k).IsSymm) ∧ ((2 : ℚ) • (1 : Matrix (Fin 2) (Fin 2) ℚ)).IsSymm ∧
    (LMI2Oracle.assessFeas docF ((2 : ℚ) • 1) (LDLTMgr.init 2) ![1, 0]).2.toOption.map Option.isNone = some true ∧
    ((LMI2Oracle.assessFeas docF ((2 : ℚ) • 1) (LDLTMgr.init 2) ![3, 0]).2.toOption.bind id).map
      (fun c => (c.1 0, c.1 1, c.2)) = some (1, 0, 1, 3) ∧
    ((LMI2Oracle.assessFeas docF ((2 : ℚ) • 1) (LDLTMgr.init 2) ![-1, 0]).2.toOption.bind id).map
      (fun c => (c.1 0, c.1 1, c.2)) = some (-1, 0, 1, 3) ∧
    ((LMI3Oracle.assessFeas docF ((2 : ℚ) • 1) (LDLTMgr.init 2) ![1, 0]).2.toOption.bind id).map
      (fun c => (c.1 0, c.1 1, c.2)) = some (-1, 0, 1) := by
  refine ⟨?_, ?_, ?_, ?_, ?_, ?_⟩
  · intro k; fin_cases k
    · exact isSymm_one
    · ext i j; fin_cases i <;> fin_cases j <;> rfl
  · exact isSymm_one.smul _
  all_goals decide +kernel

end Ellalgo
