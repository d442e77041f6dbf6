import Verif.Props.MinVolume
import Verif.Props.Convergence
import Mathlib.MeasureTheory.Measure.Haar.NormedSpace

/-! # C72, C73: Lebesgue volume, and iteration bounds in terms of it -/

namespace Ellalgo

open Matrix Spec EllCalcCore MeasureTheory CuttingPlane

variable {n : ℕ} {O G : Type*}

/-! ### C72 -/

theorem WF.volume_region {e : Ell n} (he : e.WF) :
    volume e.region = ENNReal.ofReal (Real.sqrt (e.kappa • e.mq).det) * volume {w : Vec n | w ⬝ᵥ w ≤ 1} :=
  volume_ellipsoid he.posDef he.kappa_pos e.xc

theorem WF.volume_ne_top {e : Ell n} (he : e.WF) : volume e.region ≠ ⊤ := by
  rw [WF.volume_region he]; exact ENNReal.mul_ne_top ENNReal.ofReal_ne_top volume_unitBall.2

theorem WF.volume_ne_zero {e : Ell n} (he : e.WF) : volume e.region ≠ 0 := by
  rw [WF.volume_region he]
  refine mul_ne_zero ?_ volume_unitBall.1
  have := Real.sqrt_pos.mpr (WF.det_pos he)
  simpa using this

/-- **C72.** The Lebesgue volume of the search space is `√det(κM)` times that of the unit ball, a positive finite number. So C07 and C71 are
statements about volumes. -/
theorem C72_volume_is_det (e : Ell n) (he : e.WF) :
    volume e.region = ENNReal.ofReal (Real.sqrt (e.kappa • e.mq).det) * volume (ball (0 : Vec n) 1) ∧
    volume e.region ≠ 0 ∧ volume e.region ≠ ⊤ := by
  refine ⟨?_, WF.volume_ne_zero he, WF.volume_ne_top he⟩
  rw [WF.volume_region he]
  congr 2
  ext w; simp [ball]

theorem volume_le_of_det {e e' : Ell n} (he : e.WF) (he' : e'.WF) {s : ℝ}
    (h : (e'.kappa • e'.mq).det ≤ Real.exp s * (e.kappa • e.mq).det) :
    volume e'.region ≤ ENNReal.ofReal (Real.exp (s / 2)) * volume e.region := by
  rw [WF.volume_region he, WF.volume_region he', ← mul_assoc, ← ENNReal.ofReal_mul (Real.exp_pos _).le]
  refine mul_le_mul_left (ENNReal.ofReal_le_ofReal ?_) _
  have h1 : Real.exp s = Real.exp (s / 2) ^ 2 := by rw [← Real.exp_nat_mul]; congr 1; push_cast; ring
  calc Real.sqrt (e'.kappa • e'.mq).det ≤ Real.sqrt (Real.exp s * (e.kappa • e.mq).det) := Real.sqrt_le_sqrt h
    _ = Real.exp (s / 2) * Real.sqrt (e.kappa • e.mq).det := by
      rw [Real.sqrt_mul (Real.exp_pos _).le, h1, Real.sqrt_sq (Real.exp_pos _).le]

/-- **C72, reduction.** A successful deep or central cut that leaves a body of positive width multiplies the volume by at most `exp(-1/(2(n+1)))`. -/
theorem C72_volume_reduction (e : Ell n) (he : e.WF) (m : Method) (cut : Cut n) (e' : Ell n)
    (hm : match m with | .bias => cut.2.FirstNonneg | .central => True | .q => False)
    (hw : KeepsWidth e m cut) (h : e.update m cut = (e', .ok .success)) :
    volume e'.region ≤ ENNReal.ofReal (Real.exp (-1 / (2 * ((n : ℝ) + 1)))) * volume e.region := by
  have w : e'.WF := by have := update_WF he m cut fun _ => hw; rwa [h] at this
  have := volume_le_of_det he w (C07_volume_reduction e he m cut e' hm h)
  rwa [show -1 / ((n : ℝ) + 1) / 2 = -1 / (2 * ((n : ℝ) + 1)) by rw [div_div, mul_comm]] at this

/-- **C72, minimality.** Among all ellipsoids that contain what the cut leaves, the updated object has the smallest volume, and no other ellipsoid has the same volume. -/
theorem C72_minimum_volume (e : Ell n) (he : e.WF) (hpar : e.helper.useParallelCut = true) (m : Method) (cut : Cut n)
    (hm : m.Meant (Real.sqrt (e.kappa * (cut.1 ⬝ᵥ (e.mq *ᵥ cut.1)))) cut.2) (e' : Ell n) (w : e'.WF) (st : CutStatus)
    (hst : st ≠ .noSoln) (h : e.update m cut = (e', .ok st))
    (Q : Mat n) (hQ : Q.PosDef) (κ : ℝ) (hκ : 0 < κ) (a : Vec n)
    (hc : e.region ∩ keptBy m cut e.xc ⊆ ellipsoid Q κ a) :
    volume e'.region ≤ volume (ellipsoid Q κ a) ∧
    (volume (ellipsoid Q κ a) = volume e'.region → ellipsoid Q κ a = e'.region) := by
  obtain ⟨h1, h2⟩ := C71_minimum_volume e he hpar m cut hm e' st hst h Q hQ κ hκ a hc
  have hQd : 0 < (κ • Q).det := (hQ.smul hκ).det_pos
  rw [WF.volume_region w, volume_ellipsoid hQ hκ]
  refine ⟨mul_le_mul_left (ENNReal.ofReal_le_ofReal (Real.sqrt_le_sqrt h1)) _, fun h3 => ?_⟩
  have h4 := (ENNReal.mul_left_inj volume_unitBall.1 volume_unitBall.2).mp h3
  rw [ENNReal.ofReal_eq_ofReal_iff (Real.sqrt_nonneg _) (Real.sqrt_nonneg _),
    Real.sqrt_inj hQd.le (WF.det_pos w).le] at h4
  obtain ⟨h5, rfl⟩ := h2 h4
  have h6 : ∀ (M : Mat n) (k : ℝ) (c : Vec n), M.PosDef → 0 < k → ellipsoid M k c = supportSet (k • M) 1 c := by
    intro M k c hM hk
    rw [← supportSet_eq_ellipsoid hM hk.le, Ell.supportSet_smul, one_mul]
  rw [show e'.region = ellipsoid e'.mq e'.kappa e'.xc from rfl, h6 _ _ _ hQ hκ, h6 _ _ _ w.posDef w.kappa_pos, h5]

/-- The shallow-cut parameters of `update_q` on the unit disc, a strictly smaller ellipsoid. -/
example : unitDisc.helper.useParallelCut = true ∧
    Method.q.Meant (Real.sqrt (unitDisc.kappa * ((![1, 0] : Vec 2) ⬝ᵥ (unitDisc.mq *ᵥ ![1, 0])))) (.scalar (-1 / 4)) ∧
    ∃ e', unitDisc.update .q (![1, 0], .scalar (-1 / 4)) = (e', .ok .success) ∧ e'.WF := by
  have hq : (EllCalc.std 2 true).calcBiasCutQ (-1 / 4) 1 =
      .ok (.success, some (biasParams (2 : ℕ) (-1 / 4) (Real.sqrt 1))) :=
    EllCalc.calcBiasCutQ_eq (n := 2) one_pos (by rw [Real.sqrt_one]; norm_num) le_rfl (by rw [Real.sqrt_one]; norm_num)
  refine ⟨rfl, ?_, _, Ell.updateCore_some e1_ne_zero unitDisc_omega_ne (by rw [unitDisc_tsq]; exact hq),
    Ell.applied_WF unitDisc_WF e1_ne_zero ?_ ?_⟩
  · rw [unitDisc_quad, Real.sqrt_one]; show (-1 : ℝ) ≤ _; norm_num
  · rw [Real.sqrt_one]; norm_num [biasParams]
  · rw [Real.sqrt_one]; norm_num [biasParams]

/-! ### C73 -/

/-- The set is not contained in a hyperplane. -/
def Thick (F : Set (Vec n)) : Prop := ∀ g : Vec n, g ≠ 0 → ∃ x ∈ F, ∃ y ∈ F, g ⬝ᵥ x ≠ g ⬝ᵥ y

theorem volume_hyperplane {g : Vec n} (hg : g ≠ 0) (b : ℝ) : volume {x : Vec n | g ⬝ᵥ x = b} = 0 := by
  set f : Vec n →ₗ[ℝ] ℝ := LinearMap.mk ⟨fun x => g ⬝ᵥ x, dotProduct_add g⟩ (fun c x => dotProduct_smul c g x) with hf
  have hk : LinearMap.ker f ≠ ⊤ := by
    intro h
    have h1 : g ∈ LinearMap.ker f := by rw [h]; trivial
    exact hg (dotProduct_self_eq_zero.mp (by simpa [hf] using h1))
  have h0 : volume (LinearMap.ker f : Set (Vec n)) = 0 := Measure.addHaar_submodule volume _ hk
  by_cases hne : ∃ x0 : Vec n, g ⬝ᵥ x0 = b
  · obtain ⟨x0, hx0⟩ := hne
    have h1 : {x : Vec n | g ⬝ᵥ x = b} = (fun x => -x0 + x) ⁻¹' (LinearMap.ker f : Set (Vec n)) := by
      ext x
      simp only [Set.mem_ofPred_eq, Set.mem_preimage, SetLike.mem_coe, LinearMap.mem_ker, hf]
      show g ⬝ᵥ x = b ↔ g ⬝ᵥ (-x0 + x) = 0
      rw [dotProduct_add, dotProduct_neg, hx0]
      constructor <;> intro h <;> linarith
    rw [h1, measure_preimage_add]; exact h0
  · have h1 : {x : Vec n | g ⬝ᵥ x = b} = ∅ := Set.eq_empty_iff_forall_notMem.mpr fun x hx => hne ⟨x, hx⟩
    rw [h1]; exact measure_empty

/-- A set of positive volume is not contained in a hyperplane. -/
theorem thick_of_volume {F : Set (Vec n)} (h : volume F ≠ 0) : Thick F := by
  intro g hg
  by_contra hc
  push Not at hc
  rcases F.eq_empty_or_nonempty with h1 | ⟨x, hx⟩
  · rw [h1] at h; exact h measure_empty
  · exact h (measure_mono_null (fun y hy => (hc y hy x hx : g ⬝ᵥ y = g ⬝ᵥ x)) (volume_hyperplane hg (g ⬝ᵥ x)))

/-- Without the condition on the length of the gradients: cuts of a well-formed shape with nonzero gradient, no exceptions. -/
structure ProperOracle (I : O → Prop) (F : Set (Vec n)) (omega : OracleFeas O (Vec n) (Cut n)) : Prop
    extends SeparatingOracle I F omega where
  total : ∀ o x o' f, I o → omega o x ≠ (o', .error f)
  shape : ∀ o x o' cut, I o → omega o x = (o', .ok (some cut)) → cut.2.Deep ∧ cut.1 ≠ 0

/-- The part of `ProperOracle` that does not say what an accepted point is. -/
structure ProperCuts (I : O → Prop) (F : Set (Vec n)) (omega : OracleFeas O (Vec n) (Cut n)) : Prop
    extends CuttingOracle I F omega where
  total : ∀ o x o' f, I o → omega o x ≠ (o', .error f)
  shape : ∀ o x o' cut, I o → omega o x = (o', .ok (some cut)) → cut.2.Deep ∧ cut.1 ≠ 0

theorem ProperOracle.cuts {I : O → Prop} {F F' : Set (Vec n)} {omega : OracleFeas O (Vec n) (Cut n)}
    (h : ProperOracle I F omega) (hF : F' ⊆ F) : ProperCuts I F' omega :=
  { h.toCuttingOracle.mono hF with total := h.total, shape := h.shape }

theorem RegularOracle.proper {I : O → Prop} {F : Set (Vec n)} {omega : OracleFeas O (Vec n) (Cut n)}
    (h : RegularOracle I F omega) : ProperOracle I F omega :=
  { h with shape := fun o x o' cut hi ha =>
      ⟨(h.shape o x o' cut hi ha).1, Ell.ne_zero_of_one_le (h.shape o x o' cut hi ha).2⟩ }

/-- The same for optimisation oracles. -/
structure ProperLevelOracle [Preorder G] (I : O → Prop) (L : G → Set (Vec n))
    (omega : OracleOptim O (Vec n) (Cut n) G) : Prop extends LevelOracle I L omega where
  total : ∀ o x γ o' f, I o → omega o x γ ≠ (o', .error f)
  shape : ∀ o x γ o' cut, I o → omega o x γ = (o', .ok (cut, none)) → cut.2.Deep ∧ cut.1 ≠ 0
  shapeCentral : ∀ o x γ o' cut γ1, I o → omega o x γ = (o', .ok (cut, some γ1)) → cut.2.CentralShape ∧ cut.1 ≠ 0

/-- The same, but only as long as the value is not better than `γs`. Gradients may vanish at better points (at a minimiser, say). -/
structure ProperUpTo [Preorder G] (I : O → Prop) (L : G → Set (Vec n)) (γs : G)
    (omega : OracleOptim O (Vec n) (Cut n) G) : Prop extends LevelOracle I L omega where
  total : ∀ o x γ o' f, I o → γ ≤ γs → omega o x γ ≠ (o', .error f)
  shape : ∀ o x γ o' cut, I o → γ ≤ γs → omega o x γ = (o', .ok (cut, none)) → cut.2.Deep ∧ cut.1 ≠ 0
  shapeCentral : ∀ o x γ o' cut γ1, I o → γ ≤ γs → γ1 ≤ γs → omega o x γ = (o', .ok (cut, some γ1)) →
    cut.2.CentralShape ∧ cut.1 ≠ 0

theorem ProperLevelOracle.upTo [Preorder G] {I : O → Prop} {L : G → Set (Vec n)}
    {omega : OracleOptim O (Vec n) (Cut n) G} (h : ProperLevelOracle I L omega) (γs : G) : ProperUpTo I L γs omega :=
  { h with
    total := fun o x γ o' f hi _ => h.total o x γ o' f hi
    shape := fun o x γ o' cut hi _ ha => h.shape o x γ o' cut hi ha
    shapeCentral := fun o x γ o' cut γ1 hi _ _ ha => h.shapeCentral o x γ o' cut γ1 hi ha }

theorem RegularLevelOracle.proper [Preorder G] {I : O → Prop} {L : G → Set (Vec n)}
    {omega : OracleOptim O (Vec n) (Cut n) G} (h : RegularLevelOracle I L omega) : ProperLevelOracle I L omega :=
  { h with
    shape := fun o x γ o' cut hi ha =>
      ⟨(h.shape o x γ o' cut hi ha).1, Ell.ne_zero_of_one_le (h.shape o x γ o' cut hi ha).2⟩
    shapeCentral := fun o x γ o' cut γ1 hi ha =>
      ⟨(h.shapeCentral o x γ o' cut γ1 hi ha).1, Ell.ne_zero_of_one_le (h.shapeCentral o x γ o' cut γ1 hi ha).2⟩ }

namespace Ell

theorem thick_step {e : Ell n} (he : e.WF) {F : Set (Vec n)} (hT : Thick F) (hF : F ⊆ e.region) {g : Vec n}
    (hg : g ≠ 0) {keeps : ℝ → Prop} {p : Params} (hp : EllCalc.ParamsSound keeps (e.kappa * e.omega g) p)
    (hk : ∀ x ∈ F, keeps (g ⬝ᵥ (x - e.xc))) : (e.applied g p).WF ∧ F ⊆ (e.applied g p).region := by
  obtain ⟨x, hx, y, hy, hne⟩ := hT g hg
  have hwf := applied_WF_of_width he hg hp (hF hx) (hF hy) (hk _ hx) (hk _ hy) hne
  refine ⟨hwf, fun x hx => ?_⟩
  rw [hwf.region_eq_hull]
  exact applied_contains he hg hp (hF hx) (hk x hx)

theorem thick_bias {e : Ell n} (he : e.WF) {F : Set (Vec n)} (hT : Thick F) (hF : F ⊆ e.region) {cut : Cut n}
    (h0 : cut.2.Deep) (hg : cut.1 ≠ 0) (hk : F ⊆ keptSet cut e.xc) :
    ∃ e', e.updateBiasCut cut = (e', .ok .success) ∧ e'.WF ∧ F ⊆ e'.region ∧ 0 < e'.tsq ∧
      (e'.kappa • e'.mq).det ≤ Real.exp (-1 / ((n : ℝ) + 1)) * (e.kappa • e.mq).det := by
  obtain ⟨hn, hh⟩ := he.built.helper_eq
  have hω := he.omega_pos hg
  have ht : 0 < e.kappa * e.omega cut.1 := mul_pos he.kappa_pos hω
  obtain ⟨c, hc, -⟩ := hT _ hg
  have hs : e.updateBiasCut cut = _ := updateCore_eq (β := cut.2) hg hω.ne' e.helper.calcSingleOrParallel
  rcases hx : e.helper.calcSingleOrParallel cut.2 (e.kappa * e.omega cut.1) with f | ⟨st, _ | p⟩
  · rw [hh] at hx; exact (EllCalc.calcSingleOrParallel_total hn h0 ht f hx).elim
  · exact ((EllCalc.calcSingleOrParallel_none hx).2 _ (sq_le_tsq he (hF hc) _) (hk hc)).elim
  · have hx' := hx
    rw [hh] at hx'
    have hη := EllCalc.etaOK_of_firstNonneg (n := n) h0.firstNonneg ht.le
      ⟨_, sq_le_tsq he (hF hc) cut.1, hk hc⟩
    obtain ⟨rfl, hsound⟩ := EllCalc.calcSingleOrParallel_sound hn ht hη hx'
    have hup : e.updateBiasCut cut = (e.applied cut.1 p, .ok .success) := by rw [hs, hx]
    obtain ⟨w1, w2⟩ := thick_step he hT hF hg hsound (fun x hx => hk hx)
    exact ⟨_, hup, w1, w2, ht, C07_volume_reduction e he .bias cut _ h0.firstNonneg hup⟩

theorem thick_central {e : Ell n} (he : e.WF) {F : Set (Vec n)} (hT : Thick F) (hF : F ⊆ e.region) {cut : Cut n}
    (h0 : cut.2.CentralShape) (hg : cut.1 ≠ 0) (hk : F ⊆ keptSetCentral cut e.xc) :
    ∃ e', e.updateCentralCut cut = (e', .ok .success) ∧ e'.WF ∧ F ⊆ e'.region ∧ 0 < e'.tsq ∧
      (e'.kappa • e'.mq).det ≤ Real.exp (-1 / ((n : ℝ) + 1)) * (e.kappa • e.mq).det := by
  obtain ⟨hn, hh⟩ := he.built.helper_eq
  have hω := he.omega_pos hg
  have ht : 0 < e.kappa * e.omega cut.1 := mul_pos he.kappa_pos hω
  obtain ⟨c, hc, -⟩ := hT _ hg
  have hs : e.updateCentralCut cut = _ := updateCore_eq (β := cut.2) hg hω.ne' e.helper.calcSingleOrParallelCentralCut
  rcases hx : e.helper.calcSingleOrParallelCentralCut cut.2 (e.kappa * e.omega cut.1) with f | ⟨st, _ | p⟩
  · rw [hh] at hx; exact (EllCalc.calcCentral_total hn h0 ht f hx).elim
  · exact ((EllCalc.calcCentral_none hx).2 _ (sq_le_tsq he (hF hc) _) (hk hc)).elim
  · have hx' := hx
    rw [hh] at hx'
    obtain ⟨rfl, hsound⟩ := EllCalc.calcCentral_sound hn ht hx'
    have hup : e.updateCentralCut cut = (e.applied cut.1 p, .ok .success) := by rw [hs, hx]
    obtain ⟨w1, w2⟩ := thick_step he hT hF hg hsound (fun x hx => hk hx)
    exact ⟨_, hup, w1, w2, ht, C07_volume_reduction e he .central cut _ trivial hup⟩

end Ell

theorem FeasTrace.thick {omega : OracleFeas O (Vec n) (Cut n)} {I : O → Prop} {F : Set (Vec n)}
    (hω : ProperCuts I F omega) (hT : Thick F) {lt tol}
    {o : O} {e : Ell n} (ho : I o) (he : e.WF) (hF : F ⊆ e.region) {l o' e'}
    (h : FeasTrace omega (Ell.space n) lt tol o e l o' e') :
    e'.WF ∧ F ⊆ e'.region ∧
      (e'.kappa • e'.mq).det ≤ Real.exp (-(l.length : ℝ) / ((n : ℝ) + 1)) * (e.kappa • e.mq).det := by
  induction h with
  | start => exact ⟨he, hF, by simp⟩
  | @step l o1 s1 o2 s2 cut t a b _ ih =>
    obtain ⟨w, hF1, hd⟩ := ih
    have hi := t.inv_oracle hω.toCuttingOracle ho
    obtain ⟨h0, hg1⟩ := hω.shape _ _ _ _ hi a
    obtain ⟨e2, hu, w2, hF2, -, hd2⟩ := Ell.thick_bias w hT hF1 h0 hg1 (hω.cut _ _ _ _ hi a).2
    have : s2 = e2 := by
      have : (s2, (Except.ok CutStatus.success : Except Fault CutStatus)) = (e2, .ok .success) := b.symm.trans hu
      exact congrArg Prod.fst this
    subst this
    refine ⟨w2, hF2, ?_⟩
    rw [List.length_append, List.length_singleton]
    exact exp_step hd hd2

/-- `2(n+1) ln(vol(E)/vol(F))`. -/
noncomputable def volBound (e : Ell n) (F : Set (Vec n)) : ℝ :=
  2 * ((n : ℝ) + 1) * Real.log ((volume e.region).toReal / (volume F).toReal)

theorem iterations_le_vol {e e' : Ell n} (he : e.WF) (he' : e'.WF) {F : Set (Vec n)} (hv : volume F ≠ 0)
    (hF : F ⊆ e'.region) {k : ℕ}
    (hd : (e'.kappa • e'.mq).det ≤ Real.exp (-(k : ℝ) / ((n : ℝ) + 1)) * (e.kappa • e.mq).det) :
    (k : ℝ) ≤ volBound e F := by
  have h1 := (measure_mono (μ := volume) hF).trans (volume_le_of_det he he' hd)
  have hE := WF.volume_ne_top he
  have hFt : volume F ≠ ⊤ := (lt_of_le_of_lt (measure_mono hF) (lt_top_iff_ne_top.mpr (WF.volume_ne_top he'))).ne
  have hF0 : 0 < (volume F).toReal := ENNReal.toReal_pos hv hFt
  have h2 := ENNReal.toReal_mono (ENNReal.mul_ne_top ENNReal.ofReal_ne_top hE) h1
  rw [ENNReal.toReal_mul, ENNReal.toReal_ofReal (Real.exp_pos _).le] at h2
  have hn : (0 : ℝ) < (n : ℝ) + 1 := by positivity
  set s := (k : ℝ) / ((n : ℝ) + 1) / 2 with hs
  have e1 : -(k : ℝ) / ((n : ℝ) + 1) / 2 = -s := by rw [hs]; ring
  rw [e1] at h2
  have h4 : Real.exp s ≤ (volume e.region).toReal / (volume F).toReal := by
    rw [le_div_iff₀ hF0]
    calc Real.exp s * (volume F).toReal ≤ Real.exp s * (Real.exp (-s) * (volume e.region).toReal) :=
          mul_le_mul_of_nonneg_left h2 (Real.exp_pos _).le
      _ = (volume e.region).toReal := by rw [← mul_assoc, ← Real.exp_add, add_neg_cancel, Real.exp_zero, one_mul]
  have h5 := Real.log_le_log (Real.exp_pos _) h4
  rw [Real.log_exp] at h5
  have h6 : (k : ℝ) = 2 * ((n : ℝ) + 1) * s := by rw [hs]; field_simp
  rw [h6, volBound]
  exact mul_le_mul_of_nonneg_left h5 (by positivity)

/-- **C73, `cutting_plane_feas`, for a wanted set `W` that need not lie inside the initial ellipsoid**: the bound is that of any part `F` of it of positive volume that does. -/
theorem C73_feas_part_inside {omega : OracleFeas O (Vec n) (Cut n)} {I : O → Prop} {W F : Set (Vec n)}
    (hω : ProperOracle I W omega) (hFW : F ⊆ W) (o : O) (ho : I o) (e : Ell n) (he : e.WF) (hF : F ⊆ e.region)
    (hv : volume F ≠ 0) (opts : Options ℝ) (hmax : volBound e F < opts.maxIters) :
    ∃ o' e' res k, feas omega (Ell.space n) ltReal o e opts = (o', e', .ok (res, k)) ∧ (k : ℝ) ≤ volBound e F ∧
      ((∃ x, res = some x ∧ x ∈ W) ∨ (res = none ∧ 0 < e'.tsq ∧ e'.tsq < opts.tolerance)) := by
  have hω' := hω.cuts hFW
  have hT := thick_of_volume hv
  obtain ⟨l, o1, e1, ht, hend⟩ := feas_spec omega (Ell.space n) ltReal o e opts
  obtain ⟨w, hF1, hd⟩ := ht.thick hω' hT ho he hF
  have hi := ht.inv_oracle hω'.toCuttingOracle ho
  have hk : (l.length : ℝ) ≤ volBound e F := iterations_le_vol he w hv hF1 hd
  have hstep : ∀ o2 cut, omega o1 e1.xc = (o2, .ok (some cut)) →
      ∃ e2, e1.updateBiasCut cut = (e2, .ok .success) ∧ 0 < e2.tsq := by
    intro o2 cut a
    obtain ⟨h0, hg1⟩ := hω.shape _ _ _ _ hi a
    obtain ⟨e2, hu, -, -, hts, -⟩ := Ell.thick_bias w hT hF1 h0 hg1 (hω'.cut _ _ _ _ hi a).2
    exact ⟨e2, hu, hts⟩
  rcases hres : feas omega (Ell.space n) ltReal o e opts with ⟨o', e', res⟩
  rw [hres] at hend
  simp only at hend
  cases hend with
  | limit h => rw [h] at hk; exact absurd hk (not_le.mpr hmax)
  | found h ha => exact ⟨_, _, _, _, rfl, hk, Or.inl ⟨_, rfl, hω.accept _ _ _ hi ha⟩⟩
  | @stop _ _ cut st h ha hu hs =>
    obtain ⟨e2, hu2, ht2⟩ := hstep _ _ ha
    have heq := hu.symm.trans hu2
    simp only [Prod.mk.injEq, Except.ok.injEq] at heq
    obtain ⟨rfl, rfl⟩ := heq
    rcases hs with hs | hs
    · exact absurd rfl hs
    · refine ⟨_, _, _, _, rfl, hk, Or.inr ⟨rfl, ht2, ?_⟩⟩
      by_contra hc
      exact absurd hs (by
        rw [show (Ell.space n).tsq e' = e'.tsq from rfl, ltReal_false.mpr (not_lt.mp hc)]; simp)
  | oracleRaises h ha => exact (hω.total _ _ _ _ hi ha).elim
  | updateRaises h ha hu =>
    obtain ⟨e2, hu2, -⟩ := hstep _ _ ha
    have heq := hu.symm.trans hu2
    simp at heq

/-- **C73, `cutting_plane_feas`.** `F` of positive volume inside the initial ellipsoid, a separating oracle that does not raise and answers well-formed
deep cuts with nonzero gradients (of any length). With `N = 2(n+1) ln(vol(E)/vol(F))`: every run completes at most `N` iterations; if `max_iters > N` it does not
run out of iterations: it returns a point of `F` or it stopped because `tsq < tolerance`; with `tolerance ≤ 0` (the volume version of C23) it returns a
point of `F`. -/
theorem C73_feas_volume_bound {omega : OracleFeas O (Vec n) (Cut n)} {I : O → Prop} {F : Set (Vec n)}
    (hω : ProperOracle I F omega) (o : O) (ho : I o) (e : Ell n) (he : e.WF) (hF : F ⊆ e.region)
    (hv : volume F ≠ 0) (opts : Options ℝ) (hmax : volBound e F < opts.maxIters) :
    ∃ o' e' res k, feas omega (Ell.space n) ltReal o e opts = (o', e', .ok (res, k)) ∧ (k : ℝ) ≤ volBound e F ∧
      ((∃ x, res = some x ∧ x ∈ F) ∨ (res = none ∧ 0 < e'.tsq ∧ e'.tsq < opts.tolerance)) :=
  C73_feas_part_inside hω subset_rfl o ho e he hF hv opts hmax

theorem C73_feas_finds {omega : OracleFeas O (Vec n) (Cut n)} {I : O → Prop} {F : Set (Vec n)}
    (hω : ProperOracle I F omega) (o : O) (ho : I o) (e : Ell n) (he : e.WF) (hF : F ⊆ e.region)
    (hv : volume F ≠ 0) (opts : Options ℝ) (htol : opts.tolerance ≤ 0) (hmax : volBound e F < opts.maxIters) :
    ∃ o' e' x k, feas omega (Ell.space n) ltReal o e opts = (o', e', .ok (some x, k)) ∧ x ∈ F ∧
      (k : ℝ) ≤ volBound e F := by
  obtain ⟨o', e', res, k, h1, h2, ⟨x, rfl, hx⟩ | ⟨rfl, h3, h4⟩⟩ :=
    C73_feas_volume_bound hω o ho e he hF hv opts hmax
  · exact ⟨o', e', x, k, h1, hx, h2⟩
  · linarith

/-- The hypotheses are satisfiable: a disc inside the unit disc. -/
example : ∃ (e : Ell 2) (N : ℕ), e.WF ∧
    ProperOracle (fun _ => True) (ball ![1 / 2, 0] (1 / 4)) (ballOracle (![1 / 2, 0] : Vec 2) (1 / 4)) ∧
    ball (![1 / 2, 0] : Vec 2) (1 / 4) ⊆ e.region ∧ volume (ball (![1 / 2, 0] : Vec 2) (1 / 4)) ≠ 0 ∧
    volBound e (ball (![1 / 2, 0] : Vec 2) (1 / 4)) < N := by
  obtain ⟨e, he⟩ := (C60_init_rejects (.scalar (1 ^ 2)) (![0, 0] : Vec 2)).mpr le_rfl
  obtain ⟨e2, he2⟩ := (C60_init_rejects (.scalar ((1 / 4) ^ 2)) (![1 / 2, 0] : Vec 2)).mpr le_rfl
  obtain ⟨w, hreg, -⟩ := init_ball one_pos he
  obtain ⟨w2, hreg2, -⟩ := init_ball (by norm_num) he2
  obtain ⟨N, hN⟩ := exists_nat_gt (volBound e (ball (![1 / 2, 0] : Vec 2) (1 / 4)))
  refine ⟨e, N, w, (ballOracle_regular _ (by norm_num)).proper, ?_, ?_, hN⟩
  · rw [hreg]
    intro x hx
    simp [ball, dotProduct, Fin.sum_univ_two] at hx ⊢
    nlinarith [sq_nonneg (x 1), sq_nonneg (x 0 - 1)]
  · rw [← hreg2]; exact WF.volume_ne_zero w2

theorem thick_updateFor [LinearOrder G] {omega : OracleOptim O (Vec n) (Cut n) G} {I : O → Prop}
    {L : G → Set (Vec n)} {γs : G} (hL : Antitone L) (hω : ProperUpTo I L γs omega) (hT : Thick (L γs))
    {o o' : O} (ho : I o) {e : Ell n} (he : e.WF) {ev : OptimEvent (Vec n) (Cut n) G} (hx : ev.x = e.xc)
    (ha : omega o ev.x ev.gamma = (o', .ok (ev.cut, ev.gamma1))) (hF : L ev.gamma ⊆ e.region)
    (hlt : ev.gamma1.getD ev.gamma ≤ γs) :
    ∃ e', (Ell.space n).updateFor e ev = (e', .ok .success) ∧ e'.WF ∧ L (ev.gamma1.getD ev.gamma) ⊆ e'.region ∧
      0 < e'.tsq ∧ (e'.kappa • e'.mq).det ≤ Real.exp (-1 / ((n : ℝ) + 1)) * (e.kappa • e.mq).det := by
  have hT2 : Thick (L (ev.gamma1.getD ev.gamma)) := fun g hg => by
    obtain ⟨x, hx, y, hy, h⟩ := hT g hg
    exact ⟨x, hL hlt hx, y, hL hlt hy, h⟩
  obtain ⟨x, γ, cut, γ1⟩ := ev
  simp only at hx ha hF hlt hT2 ⊢
  subst hx
  cases γ1 with
  | none =>
    obtain ⟨h0, hg1⟩ := hω.shape _ _ _ _ _ ho hlt ha
    exact Ell.thick_bias he hT2 hF h0 hg1 (hω.cut _ _ _ _ _ ho ha).2
  | some g1 =>
    obtain ⟨hle, hk⟩ := hω.value _ _ _ _ _ _ ho ha
    obtain ⟨h0, hg1⟩ := hω.shapeCentral _ _ _ _ _ _ ho (hle.trans hlt) hlt ha
    exact Ell.thick_central he hT2 ((hL hle).trans hF) h0 hg1 hk

theorem OptimTrace.thick [LinearOrder G] {omega : OracleOptim O (Vec n) (Cut n) G} {I : O → Prop}
    {L : G → Set (Vec n)} {γs : G} (hL : Antitone L) (hω : ProperUpTo I L γs omega) (hT : Thick (L γs))
    {lt tol} {o : O} {e : Ell n} {g0 : G} (ho : I o) (he : e.WF)
    (hF : L g0 ⊆ e.region) {l o' e'} (h : OptimTrace omega (Ell.space n) lt tol o e g0 l o' e')
    (hlt : (bestOf g0 l).2 ≤ γs) :
    e'.WF ∧ L (bestOf g0 l).2 ⊆ e'.region ∧
      (e'.kappa • e'.mq).det ≤ Real.exp (-(l.length : ℝ) / ((n : ℝ) + 1)) * (e.kappa • e.mq).det := by
  induction h with
  | start => exact ⟨he, hF, by simp⟩
  | @step l o1 s1 o2 s2 ev t h1 h2 h3 h4 _ ih =>
    rw [bestOf_snoc_snd g0 l ev h2] at hlt ⊢
    have hi := t.inv_oracle hω.toLevelOracle ho
    have hle : ev.gamma ≤ ev.gamma1.getD ev.gamma := by
      rcases hg : ev.gamma1 with _ | g
      · exact le_rfl
      · rw [hg] at h3; exact (hω.value _ _ _ _ _ _ hi h3).1
    rw [← h2] at ih
    obtain ⟨w, hF1, hd⟩ := ih (hle.trans hlt)
    obtain ⟨e2, hu, w2, hF2, -, hd2⟩ := thick_updateFor hL hω hT hi w h1 h3 hF1 hlt
    have : s2 = e2 := by
      have : (s2, (Except.ok CutStatus.success : Except Fault CutStatus)) = (e2, .ok .success) := h4.symm.trans hu
      exact congrArg Prod.fst this
    subst this
    refine ⟨w2, hF2, ?_⟩
    rw [List.length_append, List.length_singleton]
    exact exp_step hd hd2

/-- **C73, `cutting_plane_optim`, for oracles whose gradients may vanish beyond the target.** A correct optimisation oracle that, as long as the value is not better than the target `γ*`, does
not raise and answers well-formed cuts with nonzero gradients; initial level set inside the initial ellipsoid; `L γ*` of positive volume;
`N = 2(n+1) ln(vol(E)/vol(L γ*))`. As long as the best value is below `γ*` at most `N` iterations have been completed; and with `tolerance ≤ 0` and `max_iters > N` either
the call returns a value at least `γ*`, or it raises after a value at least `γ*` has been reported. -/
theorem C73_optim_up_to [LinearOrder G] {omega : OracleOptim O (Vec n) (Cut n) G} {I : O → Prop}
    {L : G → Set (Vec n)} {γs : G} (hL : Antitone L) (hω : ProperUpTo I L γs omega) (o : O) (ho : I o) (e : Ell n)
    (he : e.WF) (g0 : G) (hF : L g0 ⊆ e.region) (hv : volume (L γs) ≠ 0) (opts : Options ℝ) :
    (∀ l o1 e1, OptimTrace omega (Ell.space n) ltReal opts.tolerance o e g0 l o1 e1 →
      (bestOf g0 l).2 < γs → (l.length : ℝ) ≤ volBound e (L γs)) ∧
    (opts.tolerance ≤ 0 → volBound e (L γs) < opts.maxIters →
      (∃ o' e' xb γ k, optim omega (Ell.space n) ltReal o e g0 opts = (o', e', .ok (xb, γ, k)) ∧ γs ≤ γ) ∨
      (∃ o' e' f, optim omega (Ell.space n) ltReal o e g0 opts = (o', e', .error f) ∧
        ∃ l o1 e1, OptimTrace omega (Ell.space n) ltReal opts.tolerance o e g0 l o1 e1 ∧
          (γs < (bestOf g0 l).2 ∨ ∃ ev o2, ev.x = e1.xc ∧ ev.gamma = (bestOf g0 l).2 ∧
            omega o1 ev.x ev.gamma = (o2, .ok (ev.cut, ev.gamma1)) ∧ γs < (bestOf g0 (l ++ [ev])).2))) := by
  have hT := thick_of_volume hv
  have hlen : ∀ l o1 e1, OptimTrace omega (Ell.space n) ltReal opts.tolerance o e g0 l o1 e1 →
      (bestOf g0 l).2 < γs → (l.length : ℝ) ≤ volBound e (L γs) := by
    intro l o1 e1 h hlt
    obtain ⟨w, hF1, hd⟩ := h.thick hL hω hT ho he hF hlt.le
    exact iterations_le_vol he w hv ((hL hlt.le).trans hF1) hd
  refine ⟨hlen, fun htol hmax => ?_⟩
  obtain ⟨l, o1, e1, ht, hE⟩ := optim_spec omega (Ell.space n) ltReal o e g0 opts
  have hi := ht.inv_oracle hω.toLevelOracle ho
  have hstep : ∀ ev o2, ev.x = e1.xc → ev.gamma = (bestOf g0 l).2 → omega o1 ev.x ev.gamma = (o2, .ok (ev.cut, ev.gamma1)) →
      (bestOf g0 (l ++ [ev])).2 ≤ γs → ∃ e2, (Ell.space n).updateFor e1 ev = (e2, .ok .success) ∧ 0 < e2.tsq := by
    intro ev o2 h1 h2 h3 hle2
    have hle : (bestOf g0 l).2 ≤ (bestOf g0 (l ++ [ev])).2 := by
      rw [bestOf_snoc_snd g0 l ev h2, ← h2]
      rcases hg : ev.gamma1 with _ | g
      · exact le_rfl
      · rw [hg] at h3; exact (hω.value _ _ _ _ _ _ hi h3).1
    obtain ⟨w, hF1, -⟩ := ht.thick hL hω hT ho he hF (hle.trans hle2)
    rw [bestOf_snoc_snd g0 l ev h2] at hle2
    rw [← h2] at hF1
    obtain ⟨e2, hu, -, -, hts, -⟩ := thick_updateFor hL hω hT hi w h1 h3 hF1 hle2
    exact ⟨e2, hu, hts⟩
  rcases hres : optim omega (Ell.space n) ltReal o e g0 opts with ⟨o', e', res⟩
  rw [hres] at hE
  simp only at hE
  cases hE with
  | limit hl =>
    refine .inl ⟨_, _, _, _, _, rfl, ?_⟩
    by_contra hge
    have := hlen l _ _ ht (not_le.mp hge)
    rw [hl] at this
    exact absurd this (not_le.mpr hmax)
  | @stop _ _ st ev hl h1 h2 h3 h4 h5 =>
    refine .inl ⟨_, _, _, _, _, rfl, ?_⟩
    by_contra hge
    obtain ⟨e2, hu, hts⟩ := hstep ev _ h1 h2 h3 (not_le.mp hge).le
    have heq := h4.symm.trans hu
    simp only [Prod.mk.injEq, Except.ok.injEq] at heq
    obtain ⟨rfl, rfl⟩ := heq
    rcases h5 with h5 | h5
    · exact absurd rfl h5
    · exact absurd h5 (by
        rw [show (Ell.space n).tsq e' = e'.tsq from rfl, ltReal_false.mpr (htol.trans hts.le)]; simp)
  | oracleRaises hl ha =>
    refine .inr ⟨_, _, _, rfl, l, _, _, ht, .inl ?_⟩
    by_contra hge
    exact hω.total _ _ _ _ _ hi (not_lt.mp hge) ha
  | @updateRaises _ _ f ev hl h1 h2 h3 h4 =>
    refine .inr ⟨_, _, _, rfl, l, _, _, ht, .inr ⟨ev, _, h1, h2, h3, ?_⟩⟩
    by_contra hge
    obtain ⟨e2, hu, -⟩ := hstep ev _ h1 h2 h3 (not_lt.mp hge)
    have heq := h4.symm.trans hu
    simp at heq

/-- **C73, `cutting_plane_optim`.** A correct optimisation oracle that does not raise and answers well-formed cuts with nonzero gradients (of any length), initial
level set inside the initial ellipsoid, and a target `γ*` whose level set has positive volume; `N = 2(n+1) ln(vol(E)/vol(L γ*))`. As long as the best value is
below `γ*` at most `N` iterations have been completed; and with `tolerance ≤ 0` and `max_iters > N` a returned value is at least `γ*`. -/
theorem C73_optim_volume_bound [LinearOrder G] {omega : OracleOptim O (Vec n) (Cut n) G} {I : O → Prop}
    {L : G → Set (Vec n)} (hL : Antitone L) (hω : ProperLevelOracle I L omega) (o : O) (ho : I o) (e : Ell n)
    (he : e.WF) (g0 γs : G) (hF : L g0 ⊆ e.region) (hv : volume (L γs) ≠ 0) (opts : Options ℝ) :
    (∀ l o1 e1, OptimTrace omega (Ell.space n) ltReal opts.tolerance o e g0 l o1 e1 →
      (bestOf g0 l).2 < γs → (l.length : ℝ) ≤ volBound e (L γs)) ∧
    (opts.tolerance ≤ 0 → volBound e (L γs) < opts.maxIters → ∀ o' e' xb γ k,
      optim omega (Ell.space n) ltReal o e g0 opts = (o', e', .ok (xb, γ, k)) → γs ≤ γ) := by
  obtain ⟨h1, h2⟩ := C73_optim_up_to hL (hω.upTo γs) o ho e he g0 hF hv opts
  refine ⟨h1, fun htol hmax o' e' xb γ k hres => ?_⟩
  rcases h2 htol hmax with ⟨_, _, _, _, _, h3, h4⟩ | ⟨_, _, _, h3, -⟩
  · rw [hres] at h3
    simp only [Prod.mk.injEq, Except.ok.injEq] at h3
    obtain ⟨-, -, -, rfl, -⟩ := h3
    exact h4
  · rw [hres] at h3; simp at h3

/-- Minimising `|x - c|²` from the disc of radius 1: the level set `|x - c|² ≤ 1/16` has positive volume. -/
example : ∃ (e : Ell 2) (N : ℕ), e.WF ∧
    ProperLevelOracle (fun _ => True) (fun γ : ℝ => {y | γ ≤ -((y - 0) ⬝ᵥ (y - 0))}) (distOracle (0 : Vec 2)) ∧
    {y : Vec 2 | (-1 : ℝ) ≤ -((y - 0) ⬝ᵥ (y - 0))} ⊆ e.region ∧
    volume {y : Vec 2 | (-(1 / 4) ^ 2 : ℝ) ≤ -((y - 0) ⬝ᵥ (y - 0))} ≠ 0 ∧
    volBound e {y : Vec 2 | (-(1 / 4) ^ 2 : ℝ) ≤ -((y - 0) ⬝ᵥ (y - 0))} < N := by
  obtain ⟨e, he⟩ := (C60_init_rejects (.scalar (1 ^ 2)) (0 : Vec 2)).mpr le_rfl
  obtain ⟨e2, he2⟩ := (C60_init_rejects (.scalar ((1 / 4) ^ 2)) (0 : Vec 2)).mpr le_rfl
  obtain ⟨w, hreg, -⟩ := init_ball one_pos he
  obtain ⟨w2, hreg2, -⟩ := init_ball (by norm_num) he2
  obtain ⟨N, hN⟩ := exists_nat_gt (volBound e {y : Vec 2 | (-(1 / 4) ^ 2 : ℝ) ≤ -((y - 0) ⬝ᵥ (y - 0))})
  refine ⟨e, N, w, (distOracle_regular 0).proper, ?_, ?_, hN⟩
  · rw [hreg]
    intro x hx
    simp only [Set.mem_ofPred_eq] at hx
    show (x - 0) ⬝ᵥ (x - 0) ≤ 1 ^ 2
    linarith
  · have h1 : {y : Vec 2 | (-(1 / 4) ^ 2 : ℝ) ≤ -((y - 0) ⬝ᵥ (y - 0))} = e2.region := by
      rw [hreg2]
      ext x
      simp only [Set.mem_ofPred_eq, ball]
      constructor <;> intro h <;> linarith
    rw [h1]; exact WF.volume_ne_zero w2

end Ellalgo
