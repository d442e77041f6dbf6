import Verif.Props.Lmi
import Verif.Props.Accuracy
import Mathlib.Topology.Algebra.Module.FiniteDimension
import Mathlib.Topology.MetricSpace.Bounded

/-!
# C78: convergence of `cutting_plane_feas` on linear matrix inequalities
-/

namespace Ellalgo

open Finset Spec Matrix CuttingPlane MeasureTheory

variable {K : Type*} [Field K] [LinearOrder K] [IsStrictOrderedRing K] {m q : ℕ}

theorem one_le_sliceVec {w : ℕ → K} {a b n : ℕ} (h1 : a < b) (h2 : b ≤ n) (hw : w (b - 1) = 1) : 1 ≤ sliceVec n w a b ⬝ᵥ sliceVec n w a b := by
  have h : sliceVec n w a b ⟨b - 1, by omega⟩ = 1 := by
    unfold sliceVec
    rw [if_pos ⟨by simp only; omega, by simp only; omega⟩, hw]
  refine le_trans (le_of_eq ?_) (single_le_sum (f := fun i => sliceVec n w a b i * sliceVec n w a b i) (fun i _ => mul_self_nonneg _) (mem_univ ⟨b - 1, by omega⟩))
  rw [h, mul_one]

/-- **The cut of `LMIOracle` is exact**: there is a vector `v` with an entry 1 (the witness) and `gᵀ(y - x) + ep = -vᵀ(B - Σ y_k F_k)v` for every `y`. -/
theorem C78_lmi_cut_exact (matF : Fin q → Matrix (Fin m) (Fin m) K) (matB : Matrix (Fin m) (Fin m) K)
    (hF : ∀ k, (matF k).IsSymm) (hB : matB.IsSymm) (mgr : LDLTMgr K) (hm : mgr.ndim = m) (x : Fin q → K) {mgr' g ep}
    (h : LMIOracle.assessFeas matF matB mgr x = (mgr', .ok (some (g, ep)))) :
    ∃ v : Fin m → K, 1 ≤ v ⬝ᵥ v ∧ ∀ y, g ⬝ᵥ (y - x) + ep = -(v ⬝ᵥ (lmiMat matF matB y *ᵥ v)) := by
  subst hm
  unfold LMIOracle.assessFeas at h
  simp only at h
  rw [lmi_getElem] at h
  rcases hb : (mgr.factor (toArr2 (lmiMat matF matB x))).2.1 with _ | _
  · obtain ⟨m2, ep', h1, h2, h3, hp1, hp2, hw, h5, h6, h7⟩ := C39_witness_certifies mgr _ hb
    rw [symOf_toArr2 (lmiMat_isSymm hF hB x)] at h6
    rw [hb, h1] at h
    simp only [Bool.false_eq_true, if_false, Prod.mk.injEq, Except.ok.injEq, Option.some.injEq] at h
    obtain ⟨rfl, rfl, rfl⟩ := h
    set v := sliceVec mgr.ndim m2.wit m2.pos.1 m2.pos.2
    refine ⟨v, one_le_sliceVec hp1 hp2 hw, fun y => ?_⟩
    have hg : (fun k => m2.symQuad (toArr2 (matF k))) = fun k => v ⬝ᵥ (matF k *ᵥ v) := funext fun k => h7 (matF k)
    rw [quad_lmi] at h6 ⊢
    rw [hg, dotProduct_sub]
    linarith
  · rw [hb] at h; simp at h

/-- The same for `LMI0Oracle`. -/
theorem C78_lmi0_cut_exact (matF : Fin q → Matrix (Fin m) (Fin m) K)
    (hF : ∀ k, (matF k).IsSymm) (mgr : LDLTMgr K) (hm : mgr.ndim = m) (x : Fin q → K) {mgr' g ep}
    (h : LMI0Oracle.assessFeas matF mgr x = (mgr', .ok (some (g, ep)))) :
    ∃ v : Fin m → K, 1 ≤ v ⬝ᵥ v ∧ ∀ y, g ⬝ᵥ (y - x) + ep = -(v ⬝ᵥ (lmi0Mat matF y *ᵥ v)) := by
  subst hm
  unfold LMI0Oracle.assessFeas at h
  simp only at h
  rw [lmi0_getElem] at h
  rcases hb : (mgr.factor (toArr2 (lmi0Mat matF x))).2.1 with _ | _
  · obtain ⟨m2, ep', h1, h2, h3, hp1, hp2, hw, h5, h6, h7⟩ := C39_witness_certifies mgr _ hb
    rw [symOf_toArr2 (lmi0Mat_isSymm hF x)] at h6
    rw [hb, h1] at h
    simp only [if_true, Prod.mk.injEq, Except.ok.injEq, Option.some.injEq] at h
    obtain ⟨rfl, rfl, rfl⟩ := h
    set v := sliceVec mgr.ndim m2.wit m2.pos.1 m2.pos.2
    refine ⟨v, one_le_sliceVec hp1 hp2 hw, fun y => ?_⟩
    have hg : (fun k => -m2.symQuad (toArr2 (matF k))) = -fun k => v ⬝ᵥ (matF k *ᵥ v) :=
      funext fun k => congrArg Neg.neg (h7 (matF k))
    rw [quad_lmi0] at h6 ⊢
    rw [hg, neg_dotProduct, dotProduct_sub]
    linarith
  · rw [hb] at h; simp at h

/-! ### Oracles that answer with witnesses -/

/-- An oracle for "`M y` positive definite" that answers a witness, turned into a cut. -/
structure WitnessOracle {O : Type*} (I : O → Prop) (M : Vec q → Matrix (Fin m) (Fin m) ℝ)
    (omega : OracleFeas O (Vec q) (Cut q)) : Prop where
  inv : ∀ o x, I o → I (omega o x).1
  total : ∀ o x o' f, I o → omega o x ≠ (o', .error f)
  accept : ∀ o x o', I o → omega o x = (o', .ok none) → QuadPos (M x)
  cut : ∀ o x o' cut, I o → omega o x = (o', .ok (some cut)) → ∃ g ep v, cut = (g, .scalar ep) ∧ 0 ≤ ep ∧ 1 ≤ v ⬝ᵥ v ∧
    ∀ y, g ⬝ᵥ (y - x) + ep = -(v ⬝ᵥ (M y *ᵥ v))

theorem lmiOmega_witness (matF : Fin q → Matrix (Fin m) (Fin m) ℝ) (matB : Matrix (Fin m) (Fin m) ℝ)
    (hF : ∀ k, (matF k).IsSymm) (hB : matB.IsSymm) :
    WitnessOracle (fun mgr : LDLTMgr ℝ => mgr.ndim = m) (lmiMat matF matB) (lmiOmega matF matB) where
  inv := (lmiOmega_separating matF matB hF hB).inv
  total mgr x o' f hm ha := by
    rcases C43_lmi_separates matF matB hF hB mgr hm x with ⟨m', h, -⟩ | ⟨m', g, ep, h, -⟩ <;>
      simp [lmiOmega, h, Except.map] at ha
  accept mgr x o' hm ha := by
    rcases C43_lmi_separates matF matB hF hB mgr hm x with ⟨m', h, -, h2⟩ | ⟨m', g, ep, h, -⟩
    · exact h2
    · simp [lmiOmega, h, Except.map] at ha
  cut mgr x o' cut hm ha := by
    rcases C43_lmi_separates matF matB hF hB mgr hm x with ⟨m', h, -⟩ | ⟨m', g, ep, h, -, -, h3, h4⟩
    · simp [lmiOmega, h, Except.map] at ha
    · obtain ⟨v, hv, h5⟩ := C78_lmi_cut_exact matF matB hF hB mgr hm x h
      simp only [lmiOmega, h, Except.map, Option.map_some, Prod.mk.injEq, Except.ok.injEq, Option.some.injEq] at ha
      obtain ⟨-, rfl⟩ := ha
      exact ⟨g, ep, v, rfl, h3, hv, h5⟩

/-- `LMI0Oracle` as an oracle of the cutting-plane loops. -/
noncomputable def lmi0Omega (matF : Fin q → Matrix (Fin m) (Fin m) ℝ) : OracleFeas (LDLTMgr ℝ) (Vec q) (Cut q) :=
  fun mgr x => ((LMI0Oracle.assessFeas matF mgr x).1,
    (LMI0Oracle.assessFeas matF mgr x).2.map fun r => r.map fun c => (c.1, .scalar c.2))

theorem lmi0Omega_witness (matF : Fin q → Matrix (Fin m) (Fin m) ℝ) (hF : ∀ k, (matF k).IsSymm) :
    WitnessOracle (fun mgr : LDLTMgr ℝ => mgr.ndim = m) (lmi0Mat matF) (lmi0Omega matF) where
  inv mgr x hm := by
    rcases C44_lmi0_separates matF hF mgr hm x with ⟨m', h, h2, -⟩ | ⟨m', g, ep, h, h2, -⟩ <;>
      simp only [lmi0Omega, h, h2]
  total mgr x o' f hm ha := by
    rcases C44_lmi0_separates matF hF mgr hm x with ⟨m', h, -⟩ | ⟨m', g, ep, h, -⟩ <;>
      simp [lmi0Omega, h, Except.map] at ha
  accept mgr x o' hm ha := by
    rcases C44_lmi0_separates matF hF mgr hm x with ⟨m', h, -, h2⟩ | ⟨m', g, ep, h, -⟩
    · exact h2
    · simp [lmi0Omega, h, Except.map] at ha
  cut mgr x o' cut hm ha := by
    rcases C44_lmi0_separates matF hF mgr hm x with ⟨m', h, -⟩ | ⟨m', g, ep, h, -, -, h3, h4⟩
    · simp [lmi0Omega, h, Except.map] at ha
    · obtain ⟨v, hv, h5⟩ := C78_lmi0_cut_exact matF hF mgr hm x h
      simp only [lmi0Omega, h, Except.map, Option.map_some, Prod.mk.injEq, Except.ok.injEq, Option.some.injEq] at ha
      obtain ⟨-, rfl⟩ := ha
      exact ⟨g, ep, v, rfl, h3, hv, h5⟩

/-- If somewhere the matrix is positive definite, no cut has a zero gradient. -/
theorem WitnessOracle.cuts {O : Type*} {I : O → Prop} {M : Vec q → Matrix (Fin m) (Fin m) ℝ} {omega : OracleFeas O (Vec q) (Cut q)}
    (hω : WitnessOracle I M omega) {y0 : Vec q} (h0 : QuadPos (M y0)) {F : Set (Vec q)} (hF : ∀ y ∈ F, QuadNonneg (M y)) :
    ProperCuts I F omega where
  inv := hω.inv
  total := hω.total
  cut o x o' cut hi ha := by
    obtain ⟨g, ep, v, rfl, h1, -, h3⟩ := hω.cut o x o' cut hi ha
    refine ⟨h1, fun y hy => ?_⟩
    have := hF y hy v
    show g ⬝ᵥ (y - x) + ep ≤ 0
    rw [h3]; linarith
  shape o x o' cut hi ha := by
    obtain ⟨g, ep, v, rfl, h1, h2, h3⟩ := hω.cut o x o' cut hi ha
    refine ⟨h1, fun hg => ?_⟩
    have := h0 v (fun hv => by rw [hv] at h2; simp at h2; linarith)
    have h4 := h3 y0
    rw [show g = 0 from hg, zero_dotProduct] at h4
    linarith

/-- The wanted set is convex along segments. -/
def AffineFamily (M : Vec q → Matrix (Fin m) (Fin m) ℝ) : Prop :=
  ∀ (x y : Vec q) (t : ℝ) (v : Fin m → ℝ),
    v ⬝ᵥ (M ((1 - t) • x + t • y) *ᵥ v) = (1 - t) * (v ⬝ᵥ (M x *ᵥ v)) + t * (v ⬝ᵥ (M y *ᵥ v))

theorem lmiMat_affine (matF : Fin q → Matrix (Fin m) (Fin m) ℝ) (matB : Matrix (Fin m) (Fin m) ℝ) :
    AffineFamily (lmiMat matF matB) := by
  intro x y t v
  simp only [quad_lmi, dotProduct_add, dotProduct_smul, smul_eq_mul]; ring

theorem lmi0Mat_affine (matF : Fin q → Matrix (Fin m) (Fin m) ℝ) : AffineFamily (lmi0Mat matF) := by
  intro x y t v
  simp only [quad_lmi0, dotProduct_add, dotProduct_smul, smul_eq_mul]

theorem dot_self_nonneg' (v : Fin m → ℝ) : 0 ≤ v ⬝ᵥ v := Finset.sum_nonneg fun _ _ => mul_self_nonneg _

theorem Ell.tsq_updateBiasCut {e e' : Ell q} (he : e.WF) {cut : Cut q} (hg : cut.1 ≠ 0) {st : CutStatus} (h : e.updateBiasCut cut = (e', .ok st)) : e'.tsq = e.kappa * e.omega cut.1 := by
  have hs : e.updateBiasCut cut = _ := updateCore_eq (β := cut.2) hg (he.omega_pos hg).ne' e.helper.calcSingleOrParallel
  rw [hs] at h
  split at h <;> simp only [Prod.mk.injEq, Except.ok.injEq, reduceCtorEq, and_false] at h
  · rw [← h.1]
  · rw [← h.1]; rfl

theorem witness_run {O : Type*} {I : O → Prop} {M : Vec q → Matrix (Fin m) (Fin m) ℝ} (hM : AffineFamily M)
    {omega : OracleFeas O (Vec q) (Cut q)} (hω : WitnessOracle I M omega) (o : O) (ho : I o) (e : Ell q) (he : e.WF)
    (y0 : Vec q) (hy0 : y0 ∈ e.region) (hpos : QuadPos (M y0)) (μ Λ : ℝ) (hμ : 0 < μ) (hΛ : 0 ≤ Λ)
    (h1 : ∀ v, μ * (v ⬝ᵥ v) ≤ v ⬝ᵥ (M y0 *ᵥ v)) (h2 : ∀ y ∈ e.region, ∀ v, -Λ * (v ⬝ᵥ v) ≤ v ⬝ᵥ (M y *ᵥ v))
    (opts : Options ℝ) (hmax : 2 * q * ((q : ℝ) + 1) * Real.log ((μ + Λ) / μ) < opts.maxIters) :
    ∃ o' e' res k, feas omega (Ell.space q) ltReal o e opts = (o', e', .ok (res, k)) ∧
      (k : ℝ) ≤ 2 * q * ((q : ℝ) + 1) * Real.log ((μ + Λ) / μ) ∧
      ((∃ x, res = some x ∧ QuadPos (M x)) ∨ (res = none ∧ μ ^ 2 ≤ e'.tsq ∧ e'.tsq < opts.tolerance)) := by
  set ε := μ / (μ + Λ) with hε
  have hs : 0 < μ + Λ := by linarith
  have hε0 : 0 < ε := div_pos hμ hs
  have hε1 : ε ≤ 1 := by rw [hε, div_le_one hs]; linarith
  set F : Set (Vec q) := {y | y ∈ e.region ∧ QuadNonneg (M y)} with hF
  obtain ⟨hv, hb⟩ := volBound_le_of_shrink he (A := e.region) (F := F) y0 hε0 (WF.volume_ne_zero he) (by
    intro y hy
    refine ⟨ellipsoid_convex e he hy0 hy (by linarith) hε0.le (by ring), fun v => ?_⟩
    rw [hM]
    have a1 := h1 v
    have a2 := h2 y hy v
    have a3 := dot_self_nonneg' v
    have e1 : (1 - ε) * μ = ε * Λ := by rw [hε]; field_simp; ring
    have b1 := mul_le_mul_of_nonneg_left a1 (show 0 ≤ 1 - ε by linarith)
    have b2 := mul_le_mul_of_nonneg_left a2 hε0.le
    have b3 : (1 - ε) * (μ * (v ⬝ᵥ v)) = ε * Λ * (v ⬝ᵥ v) := by rw [← mul_assoc, e1]
    linarith) subset_rfl (fun y hy => hy.1)
  rw [div_self (ENNReal.toReal_pos (WF.volume_ne_zero he) (WF.volume_ne_top he)).ne', Real.log_one, add_zero,
    show 1 / ε = (μ + Λ) / μ by rw [hε, one_div_div]] at hb
  have hb' : volBound e F ≤ 2 * q * ((q : ℝ) + 1) * Real.log ((μ + Λ) / μ) := by linarith
  have hω' := hω.cuts hpos (F := F) fun y hy => hy.2
  have hT := thick_of_volume hv
  -- the oracle accepts only positive definite points: use the run description directly
  obtain ⟨l, o1, e1, ht, hend⟩ := feas_spec omega (Ell.space q) ltReal o e opts
  obtain ⟨w, hF1, hd⟩ := ht.thick hω' hT ho he (fun y hy => hy.1)
  have hi := ht.inv_oracle hω'.toCuttingOracle ho
  have hk : (l.length : ℝ) ≤ 2 * q * ((q : ℝ) + 1) * Real.log ((μ + Λ) / μ) := (iterations_le_vol he w hv hF1 hd).trans hb'
  have hstep : ∀ o2 cut, omega o1 e1.xc = (o2, .ok (some cut)) →
      ∃ e2, e1.updateBiasCut cut = (e2, .ok .success) ∧ μ ^ 2 ≤ e2.tsq := by
    intro o2 cut a
    obtain ⟨a0, hg1⟩ := hω'.shape _ _ _ _ hi a
    obtain ⟨e2, hu, -, -, -, -⟩ := Ell.thick_bias w hT hF1 a0 hg1 (hω'.cut _ _ _ _ hi a).2
    refine ⟨e2, hu, ?_⟩
    obtain ⟨g, ep, v, rfl, c1, c2, c3⟩ := hω.cut _ _ _ _ hi a
    rw [Ell.tsq_updateBiasCut w hg1 hu]
    refine le_trans ?_ (Ell.sq_le_tsq w (hF1 ⟨hy0, fun v => (mul_nonneg hμ.le (dot_self_nonneg' v)).trans (h1 v)⟩) g)
    have c4 := c3 y0
    have c5 := h1 v
    nlinarith [mul_le_mul_of_nonneg_left c2 hμ.le]
  rcases hres : feas omega (Ell.space q) ltReal o e opts with ⟨o', e', res⟩
  rw [hres] at hend
  simp only at hend
  cases hend with
  | limit h => rw [h] at hk; exact absurd hk (not_le.mpr hmax)
  | found h ha => exact ⟨_, _, _, _, rfl, hk, Or.inl ⟨_, rfl, hω.accept _ _ _ hi ha⟩⟩
  | @stop _ _ cut st h ha hu hs =>
    obtain ⟨e2, hu2, ht2⟩ := hstep _ _ ha
    have heq := hu.symm.trans hu2
    simp only [Prod.mk.injEq, Except.ok.injEq] at heq
    obtain ⟨rfl, rfl⟩ := heq
    rcases hs with hs | hs
    · exact absurd rfl hs
    · refine ⟨_, _, _, _, rfl, hk, Or.inr ⟨rfl, ht2, ?_⟩⟩
      by_contra hc
      exact absurd hs (by
        rw [show (Ell.space q).tsq e' = e'.tsq from rfl, ltReal_false.mpr (not_lt.mp hc)]; simp)
  | oracleRaises h ha => exact (hω.total _ _ _ _ hi ha).elim
  | updateRaises h ha hu =>
    obtain ⟨e2, hu2, -⟩ := hstep _ _ ha
    have heq := hu.symm.trans hu2
    simp at heq

/-- **C78.** `cutting_plane_feas(LMIOracle(F, B), Ell)` when some point `y0` of the initial ellipsoid satisfies the LMI strictly, `B - Σ y0_k F_k ≥ μ I` with `μ > 0`, and `B - Σ y_k F_k ≥ -Λ I` on the
ellipsoid: with `max_iters > N = 2 q (q+1) ln((μ+Λ)/μ)` (`q` variables) the call does not raise, completes at most `N` iterations, and returns a point at which the matrix is positive definite, unless it stops
because `tsq < tolerance`; and `tsq ≥ μ²` then, so it does not stop that way if `tolerance ≤ μ²`. -/
theorem C78_lmi_converges (matF : Fin q → Matrix (Fin m) (Fin m) ℝ) (matB : Matrix (Fin m) (Fin m) ℝ)
    (hF : ∀ k, (matF k).IsSymm) (hB : matB.IsSymm) (e : Ell q) (he : e.WF)
    (y0 : Vec q) (hy0 : y0 ∈ e.region) (μ Λ : ℝ) (hμ : 0 < μ) (hΛ : 0 ≤ Λ)
    (h1 : ∀ v, μ * (v ⬝ᵥ v) ≤ v ⬝ᵥ (lmiMat matF matB y0 *ᵥ v))
    (h2 : ∀ y ∈ e.region, ∀ v, -Λ * (v ⬝ᵥ v) ≤ v ⬝ᵥ (lmiMat matF matB y *ᵥ v))
    (opts : Options ℝ) (hmax : 2 * q * ((q : ℝ) + 1) * Real.log ((μ + Λ) / μ) < opts.maxIters) :
    ∃ o' e' res k, feas (lmiOmega matF matB) (Ell.space q) ltReal (LMIOracle.init matB) e opts = (o', e', .ok (res, k)) ∧
      (k : ℝ) ≤ 2 * q * ((q : ℝ) + 1) * Real.log ((μ + Λ) / μ) ∧
      ((∃ x, res = some x ∧ QuadPos (lmiMat matF matB x)) ∨ (res = none ∧ μ ^ 2 ≤ e'.tsq ∧ e'.tsq < opts.tolerance)) :=
  witness_run (lmiMat_affine matF matB) (lmiOmega_witness matF matB hF hB) _ rfl e he y0 hy0
    (fun v hv => lt_of_lt_of_le (mul_pos hμ (lt_of_le_of_ne (dot_self_nonneg' v) fun h => hv (dotProduct_self_eq_zero.mp h.symm))) (h1 v))
    μ Λ hμ hΛ h1 h2 opts hmax

/-- **C78 for `LMI0Oracle`.** -/
theorem C78_lmi0_converges (matF : Fin q → Matrix (Fin m) (Fin m) ℝ) (hF : ∀ k, (matF k).IsSymm) (e : Ell q) (he : e.WF)
    (y0 : Vec q) (hy0 : y0 ∈ e.region) (μ Λ : ℝ) (hμ : 0 < μ) (hΛ : 0 ≤ Λ)
    (h1 : ∀ v, μ * (v ⬝ᵥ v) ≤ v ⬝ᵥ (lmi0Mat matF y0 *ᵥ v))
    (h2 : ∀ y ∈ e.region, ∀ v, -Λ * (v ⬝ᵥ v) ≤ v ⬝ᵥ (lmi0Mat matF y *ᵥ v))
    (opts : Options ℝ) (hmax : 2 * q * ((q : ℝ) + 1) * Real.log ((μ + Λ) / μ) < opts.maxIters)
    (mgr : LDLTMgr ℝ) (hmgr : LMI0Oracle.init matF = .ok mgr) :
    ∃ o' e' res k, feas (lmi0Omega matF) (Ell.space q) ltReal mgr e opts = (o', e', .ok (res, k)) ∧
      (k : ℝ) ≤ 2 * q * ((q : ℝ) + 1) * Real.log ((μ + Λ) / μ) ∧
      ((∃ x, res = some x ∧ QuadPos (lmi0Mat matF x)) ∨ (res = none ∧ μ ^ 2 ≤ e'.tsq ∧ e'.tsq < opts.tolerance)) := by
  have hm : mgr.ndim = m := by
    unfold LMI0Oracle.init at hmgr
    split_ifs at hmgr
    simp only [Except.ok.injEq] at hmgr
    rw [← hmgr]; rfl
  exact witness_run (lmi0Mat_affine matF) (lmi0Omega_witness matF hF) _ hm e he y0 hy0
    (fun v hv => lt_of_lt_of_le (mul_pos hμ (lt_of_le_of_ne (dot_self_nonneg' v) fun h => hv (dotProduct_self_eq_zero.mp h.symm))) (h1 v))
    μ Λ hμ hΛ h1 h2 opts hmax

/-! ### Without constants -/

theorem WF.isCompact_region {e : Ell q} (he : e.WF) : IsCompact e.region := by
  rw [he.region_eq_hull]
  refine Metric.isCompact_of_isClosed_isBounded ?_ ?_
  · have : e.hull = ⋂ v : Vec q, {x | (v ⬝ᵥ (x - e.xc)) ^ 2 ≤ e.kappa * (v ⬝ᵥ (e.mq *ᵥ v))} := by
      ext x; simp only [Set.mem_iInter]; exact Iff.rfl
    rw [this]
    refine isClosed_iInter fun v => isClosed_le ?_ continuous_const
    unfold dotProduct
    fun_prop
  · rw [Metric.isBounded_iff_subset_closedBall e.xc]
    refine ⟨∑ i, Real.sqrt (e.kappa * e.mq i i), fun x hx => ?_⟩
    rw [Metric.mem_closedBall, dist_pi_le_iff (Finset.sum_nonneg fun _ _ => Real.sqrt_nonneg _)]
    intro i
    have h1 : (Pi.single i (1 : ℝ) ⬝ᵥ (x - e.xc)) ^ 2 ≤ e.kappa * (Pi.single i (1 : ℝ) ⬝ᵥ (e.mq *ᵥ Pi.single i 1)) := hx _
    rw [single_one_dotProduct, single_one_dotProduct, mulVec_single_one] at h1
    rw [Real.dist_eq]
    have h2 : |x i - e.xc i| ≤ Real.sqrt (e.kappa * e.mq i i) := Real.abs_le_sqrt h1
    exact h2.trans (Finset.single_le_sum (f := fun i => Real.sqrt (e.kappa * e.mq i i)) (fun _ _ => Real.sqrt_nonneg _) (Finset.mem_univ i))

theorem isCompact_sphere' : IsCompact {v : Fin m → ℝ | v ⬝ᵥ v = 1} := by
  refine Metric.isCompact_of_isClosed_isBounded (isClosed_eq (by unfold dotProduct; fun_prop) continuous_const) ?_
  rw [Metric.isBounded_iff_subset_closedBall 0]
  refine ⟨1, fun v hv => ?_⟩
  rw [Metric.mem_closedBall, dist_pi_le_iff zero_le_one]
  intro i
  have h1 : v i * v i ≤ v ⬝ᵥ v := Finset.single_le_sum (f := fun i => v i * v i) (fun _ _ => mul_self_nonneg _) (Finset.mem_univ i)
  rw [show v ⬝ᵥ v = 1 from hv] at h1
  simp only [Pi.zero_apply, dist_zero_right, Real.norm_eq_abs]
  rw [abs_le]
  constructor <;> nlinarith

/-- From the unit sphere to all vectors. -/
theorem quad_of_sphere {A : Matrix (Fin m) (Fin m) ℝ} {c : ℝ} (h : ∀ v : Fin m → ℝ, v ⬝ᵥ v = 1 → c ≤ v ⬝ᵥ (A *ᵥ v)) (v : Fin m → ℝ) :
    c * (v ⬝ᵥ v) ≤ v ⬝ᵥ (A *ᵥ v) := by
  rcases (dot_self_nonneg' v).eq_or_lt with h0 | h0
  · rw [dotProduct_self_eq_zero.mp h0.symm]; simp
  · set s := Real.sqrt (v ⬝ᵥ v) with hs
    have hs0 : 0 < s := Real.sqrt_pos.mpr h0
    have hss : s * s = v ⬝ᵥ v := Real.mul_self_sqrt h0.le
    have := h (s⁻¹ • v) (by
      rw [smul_dotProduct, dotProduct_smul, smul_eq_mul, smul_eq_mul, ← hss]; field_simp)
    rw [mulVec_smul, smul_dotProduct, dotProduct_smul, smul_eq_mul, smul_eq_mul] at this
    have h2 := mul_le_mul_of_nonneg_left this h0.le
    rw [← hss] at h2
    rw [← hss]
    calc c * (s * s) = s * s * c := by ring
      _ ≤ _ := h2
      _ = v ⬝ᵥ (A *ᵥ v) := by field_simp

theorem exists_lower (A : Matrix (Fin m) (Fin m) ℝ) (hA : QuadPos A) : ∃ μ, 0 < μ ∧ ∀ v, μ * (v ⬝ᵥ v) ≤ v ⬝ᵥ (A *ᵥ v) := by
  have hc : Continuous fun v : Fin m → ℝ => v ⬝ᵥ (A *ᵥ v) := by unfold mulVec dotProduct; fun_prop
  rcases Set.eq_empty_or_nonempty {v : Fin m → ℝ | v ⬝ᵥ v = 1} with he | hne
  · refine ⟨1, one_pos, quad_of_sphere fun v hv => ?_⟩
    exact absurd (show v ∈ {v : Fin m → ℝ | v ⬝ᵥ v = 1} from hv) (by rw [he]; simp)
  · obtain ⟨v0, h0, hmin⟩ := isCompact_sphere'.exists_isMinOn hne hc.continuousOn
    refine ⟨v0 ⬝ᵥ (A *ᵥ v0), hA v0 fun h => ?_, quad_of_sphere fun v hv => hmin hv⟩
    have h0' : v0 ⬝ᵥ v0 = 1 := h0
    rw [h] at h0'; simp at h0'

theorem exists_uniform_lower {e : Ell q} (he : e.WF) {M : Vec q → Matrix (Fin m) (Fin m) ℝ} (hM : Continuous M) :
    ∃ Λ, 0 ≤ Λ ∧ ∀ y ∈ e.region, ∀ v, -Λ * (v ⬝ᵥ v) ≤ v ⬝ᵥ (M y *ᵥ v) := by
  have hc : Continuous fun p : Vec q × (Fin m → ℝ) => p.2 ⬝ᵥ (M p.1 *ᵥ p.2) := by
    unfold mulVec dotProduct; fun_prop
  obtain ⟨b, hb⟩ := ((WF.isCompact_region he).prod (isCompact_sphere' (m := m))).bddBelow_image hc.continuousOn
  refine ⟨max 0 (-b), le_max_left _ _, fun y hy => quad_of_sphere fun v hv => ?_⟩
  have : b ≤ v ⬝ᵥ (M y *ᵥ v) := hb ⟨(y, v), ⟨hy, hv⟩, rfl⟩
  have := le_max_right 0 (-b)
  linarith

/-- **C78, without constants.** If some point of the initial ellipsoid satisfies the linear matrix inequality strictly, then `cutting_plane_feas(LMIOracle(F, B), Ell)` with a small enough tolerance
and a large enough iteration limit returns such a point (and does not raise). -/
theorem C78_lmi_finds (matF : Fin q → Matrix (Fin m) (Fin m) ℝ) (matB : Matrix (Fin m) (Fin m) ℝ)
    (hF : ∀ k, (matF k).IsSymm) (hB : matB.IsSymm) (e : Ell q) (he : e.WF)
    (y0 : Vec q) (hy0 : y0 ∈ e.region) (hpos : QuadPos (lmiMat matF matB y0)) :
    ∃ (N : ℕ) (tol : ℝ), 0 < tol ∧ ∀ opts : Options ℝ, N ≤ opts.maxIters → opts.tolerance ≤ tol →
      ∃ o' e' x k, feas (lmiOmega matF matB) (Ell.space q) ltReal (LMIOracle.init matB) e opts = (o', e', .ok (some x, k)) ∧
        k ≤ N ∧ QuadPos (lmiMat matF matB x) := by
  obtain ⟨μ, hμ, h1⟩ := exists_lower _ hpos
  obtain ⟨Λ, hΛ, h2⟩ := exists_uniform_lower he (M := lmiMat matF matB) (by
    refine continuous_matrix fun i j => ?_
    simp only [lmiMat, Matrix.sub_apply, Matrix.sum_apply, Matrix.smul_apply, smul_eq_mul]
    fun_prop)
  obtain ⟨N, hN⟩ := exists_nat_gt (2 * q * ((q : ℝ) + 1) * Real.log ((μ + Λ) / μ))
  refine ⟨N, μ ^ 2, by positivity, fun opts hmax htol => ?_⟩
  obtain ⟨o', e', res, k, hr, hk, ⟨x, rfl, hx⟩ | ⟨-, ht, ht2⟩⟩ := C78_lmi_converges matF matB hF hB e he y0 hy0 μ Λ hμ hΛ h1 h2 opts
    (hN.trans_le (by exact_mod_cast hmax))
  · exact ⟨o', e', x, k, hr, by exact_mod_cast (hk.trans_lt hN).le, hx⟩
  · linarith

/-- The hypotheses are met by `[[y₀ - 1/4, -y₁], [-y₁, 1]] ≻ 0` in the unit disc, with `y = (1/2, 0)`, `μ = 1/4` and `Λ = 9/4`; the centre of the disc is not feasible. -/
example : ∃ (e : Ell 2) (matF : Fin 2 → Matrix (Fin 2) (Fin 2) ℝ) (matB : Matrix (Fin 2) (Fin 2) ℝ),
    e.WF ∧ (∀ k, (matF k).IsSymm) ∧ matB.IsSymm ∧ ![1 / 2, 0] ∈ e.region ∧ ¬ QuadPos (lmiMat matF matB e.xc) ∧
    (∀ v, (1 / 4 : ℝ) * (v ⬝ᵥ v) ≤ v ⬝ᵥ (lmiMat matF matB ![1 / 2, 0] *ᵥ v)) ∧
    (∀ y ∈ e.region, ∀ v, -(9 / 4 : ℝ) * (v ⬝ᵥ v) ≤ v ⬝ᵥ (lmiMat matF matB y *ᵥ v)) := by
  obtain ⟨e, he⟩ := (C60_init_rejects (.scalar (1 ^ 2)) (![0, 0] : Vec 2)).mpr le_rfl
  obtain ⟨w, hreg, -⟩ := init_ball one_pos he
  have hxc := (C60_init_scalar _ (by positivity) _ e he).2.1
  have hquad : ∀ (y : Vec 2) (v : Fin 2 → ℝ), v ⬝ᵥ (lmiMat ![!![-1, 0; 0, 0], !![0, 1; 1, 0]] !![-1 / 4, 0; 0, 1] y *ᵥ v) =
      (y 0 - 1 / 4) * (v 0 * v 0) - 2 * y 1 * (v 0 * v 1) + v 1 * v 1 := by
    intro y v
    rw [quad_lmi]
    simp [dotProduct, mulVec, Fin.sum_univ_two]; ring
  refine ⟨e, ![!![-1, 0; 0, 0], !![0, 1; 1, 0]], !![-1 / 4, 0; 0, 1], w, ?_, ?_, ?_, ?_, ?_, ?_⟩
  · intro k; ext i j; fin_cases k <;> fin_cases i <;> fin_cases j <;> rfl
  · ext i j; fin_cases i <;> fin_cases j <;> rfl
  · rw [hreg]; norm_num [ball, dotProduct, Fin.sum_univ_two]
  · intro h
    have := h ![1, 0] (by intro h; simpa using congrFun h 0)
    rw [hquad, hxc] at this
    norm_num at this
  · intro v
    rw [hquad]
    simp only [dotProduct, Fin.sum_univ_two]
    norm_num
    nlinarith [mul_self_nonneg (v 1)]
  · intro y hy v
    rw [hreg] at hy
    simp [ball, dotProduct, Fin.sum_univ_two] at hy
    rw [hquad]
    simp only [dotProduct, Fin.sum_univ_two]
    have a1 : -1 ≤ y 0 := by nlinarith [mul_self_nonneg (y 1), mul_self_nonneg (y 0 + 1)]
    have a2 : y 1 * y 1 ≤ 1 := by nlinarith [mul_self_nonneg (y 0)]
    nlinarith [mul_self_nonneg (v 0 - y 1 * v 1), mul_self_nonneg (v 0), mul_self_nonneg (v 1),
      mul_nonneg (show 0 ≤ y 0 + 1 by linarith) (mul_self_nonneg (v 0)),
      mul_nonneg (show 0 ≤ 1 - y 1 * y 1 by linarith) (mul_self_nonneg (v 1))]

end Ellalgo
