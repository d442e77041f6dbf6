import Verif.Props.LebesgueVolume
import Verif.Spec.Convex
import Mathlib.Analysis.Convex.Function

/-!
# C77: accuracy of `cutting_plane_optim` on convex problems

The classical estimate for the ellipsoid method, for this code: shrink the feasible part of the ellipsoid towards an optimum by the factor `ε`; the shrunk set has values at most
`f* + ε (M - f*)` and `ε^n` of the volume.
-/

namespace Ellalgo

open Matrix Spec MeasureTheory CuttingPlane

variable {n : ℕ} {O : Type*}

theorem ellipsoid_convex (e : Ell n) (he : e.WF) : Convex ℝ e.region := by
  rw [he.region_eq_hull]
  intro x hx y hy a b ha hb hab v
  have h1 := hx v
  have h2 := hy v
  have e1 : a • x + b • y - e.xc = a • (x - e.xc) + b • (y - e.xc) := by
    have : e.xc = a • e.xc + b • e.xc := by rw [← add_smul, hab, one_smul]
    conv_lhs => rw [this]
    rw [smul_sub, smul_sub]; abel
  rw [e1, dotProduct_add, dotProduct_smul, dotProduct_smul, smul_eq_mul, smul_eq_mul]
  set p := v ⬝ᵥ (x - e.xc)
  set q := v ⬝ᵥ (y - e.xc)
  have hb' : b = 1 - a := by linarith
  subst hb'
  nlinarith [mul_nonneg (mul_nonneg ha hb) (sq_nonneg (p - q)), mul_le_mul_of_nonneg_left h1 ha, mul_le_mul_of_nonneg_left h2 hb]

/-- Shrinking a set of positive volume towards a point: what it means for the iteration bound. -/
theorem volBound_le_of_shrink {e : Ell n} (he : e.WF) {A F : Set (Vec n)} (x : Vec n) {ε : ℝ} (hε : 0 < ε)
    (hA : volume A ≠ 0) (hAF : ∀ y ∈ A, (1 - ε) • x + ε • y ∈ F) (hAe : A ⊆ e.region) (hFe : F ⊆ e.region) :
    volume F ≠ 0 ∧ volBound e F ≤
      2 * ((n : ℝ) + 1) * (n * Real.log (1 / ε) + Real.log ((volume e.region).toReal / (volume A).toReal)) := by
  have himg : AffineMap.homothety x ε '' A ⊆ F := by
    rintro z ⟨y, hy, rfl⟩
    have := hAF y hy
    rw [AffineMap.homothety_apply]
    convert this using 1
    simp only [vsub_eq_sub, vadd_eq_add, sub_smul, smul_sub, one_smul]; abel
  have hv := Measure.addHaar_image_homothety (volume : Measure (Vec n)) x ε A
  have hfr : Module.finrank ℝ (Vec n) = n := by simp
  rw [hfr, abs_of_pos (pow_pos hε n)] at hv
  have hle : ENNReal.ofReal (ε ^ n) * volume A ≤ volume F := by rw [← hv]; exact measure_mono himg
  have hE := WF.volume_ne_top he
  have hF0 : volume F ≠ 0 := by
    intro h0
    rw [h0, nonpos_iff_eq_zero, mul_eq_zero] at hle
    rcases hle with h | h
    · rw [ENNReal.ofReal_eq_zero] at h
      exact absurd h (not_le.mpr (pow_pos hε n))
    · exact hA h
  refine ⟨hF0, ?_⟩
  have hFt : volume F ≠ ⊤ := (lt_of_le_of_lt (measure_mono hFe) (lt_top_iff_ne_top.mpr hE)).ne
  have hAt : volume A ≠ ⊤ := (lt_of_le_of_lt (measure_mono hAe) (lt_top_iff_ne_top.mpr hE)).ne
  have hle2 := ENNReal.toReal_mono hFt hle
  rw [ENNReal.toReal_mul, ENNReal.toReal_ofReal (pow_pos hε n).le] at hle2
  have hA0 : 0 < (volume A).toReal := ENNReal.toReal_pos hA hAt
  have hF0' : 0 < (volume F).toReal := ENNReal.toReal_pos hF0 hFt
  have hE0 : 0 < (volume e.region).toReal := ENNReal.toReal_pos (WF.volume_ne_zero he) hE
  unfold volBound
  refine mul_le_mul_of_nonneg_left ?_ (by positivity)
  have h1 : (n : ℝ) * Real.log (1 / ε) = Real.log ((1 / ε) ^ n) := by rw [Real.log_pow]
  rw [h1, ← Real.log_mul (by positivity) (by positivity)]
  refine Real.log_le_log (by positivity) ?_
  rw [div_pow, one_pow, div_mul_div_comm, one_mul]
  exact div_le_div_of_nonneg_left hE0.le (by positivity) hle2

section
variable {I : O → Prop} {f c : Vec n → ℝ} {omega : OracleOptim O (Vec n) (Cut n) ℝᵒᵈ}

/-- The wanted points at the level `γ`: feasible points of the ellipsoid with value at most `γ`. -/
def convexLevel (e : Ell n) (f c : Vec n → ℝ) (γ : ℝᵒᵈ) : Set (Vec n) :=
  {y | y ∈ e.region ∧ c y ≤ 0 ∧ f y ≤ OrderDual.ofDual γ}

theorem convexLevel_antitone (e : Ell n) (f c : Vec n → ℝ) : Antitone (convexLevel e f c) :=
  fun _ _ h _ hy => ⟨hy.1, hy.2.1, hy.2.2.trans h⟩

/-- A subgradient oracle is a correct oracle in the sense of C26 and C73. Above a level that some feasible point undercuts, gradients do not vanish. -/
theorem SubgradOracle.properUpTo (hω : SubgradOracle I f c omega) (e : Ell n) {xs : Vec n} (hxs : c xs ≤ 0) {γs : ℝ}
    (hγ : f xs < γs) : ProperUpTo I (convexLevel e f c) (OrderDual.toDual γs) omega where
  inv := hω.inv
  cut o x γ o' cut hi ha := by
    obtain ⟨g, ⟨h1, h2, rfl⟩ | ⟨h1, h2, rfl⟩⟩ := hω.cut o x γ o' cut hi ha
    · refine ⟨h1.le, fun y hy => ?_⟩
      have := h2 y
      show g ⬝ᵥ (y - x) + c x ≤ 0
      linarith [hy.2.1]
    · refine ⟨(sub_pos.mpr h1).le, fun y hy => ?_⟩
      have := h2 y
      show g ⬝ᵥ (y - x) + (f x - OrderDual.ofDual γ) ≤ 0
      linarith [hy.2.2]
  value o x γ o' cut γ1 hi ha := by
    obtain ⟨-, h2, h3, g, h4, rfl⟩ := hω.value o x γ o' cut γ1 hi ha
    refine ⟨by show OrderDual.ofDual γ1 ≤ OrderDual.ofDual γ; rw [h3]; exact h2, fun y hy => ?_⟩
    have := h4 y
    have h5 := hy.2.2
    rw [h3] at h5
    show g ⬝ᵥ (y - x) ≤ 0
    linarith
  total o x γ o' e hi _ := hω.total o x γ o' e hi
  shape o x γ o' cut hi hle ha := by
    have hle' : γs ≤ OrderDual.ofDual γ := hle
    obtain ⟨g, ⟨h1, h2, rfl⟩ | ⟨h1, h2, rfl⟩⟩ := hω.cut o x γ o' cut hi ha
    · refine ⟨h1.le, fun h0 => ?_⟩
      have := h2 xs
      rw [show g = 0 from h0, zero_dotProduct] at this
      linarith
    · refine ⟨(sub_pos.mpr h1).le, fun h0 => ?_⟩
      have := h2 xs
      rw [show g = 0 from h0, zero_dotProduct] at this
      linarith
  shapeCentral o x γ o' cut γ1 hi _ hle ha := by
    have hle' : γs ≤ OrderDual.ofDual γ1 := hle
    obtain ⟨-, h2, h3, g, h4, rfl⟩ := hω.value o x γ o' cut γ1 hi ha
    refine ⟨trivial, fun h0 => ?_⟩
    have := h4 xs
    rw [show g = 0 from h0, zero_dotProduct] at this
    linarith

/-- A best value better than the initial one belongs to a feasible point. -/
theorem SubgradOracle.best (hω : SubgradOracle I f c omega) {o : O} (ho : I o) {e : Ell n} {g0 : ℝᵒᵈ} {lt tol l o1 e1}
    (ht : OptimTrace omega (Ell.space n) lt tol o e g0 l o1 e1) :
    I o1 ∧ (bestOf g0 l = (none, g0) ∨
      ∃ x, bestOf g0 l = (some x, OrderDual.toDual (f x)) ∧ c x ≤ 0 ∧ f x ≤ OrderDual.ofDual g0) := by
  induction ht with
  | start => exact ⟨ho, .inl rfl⟩
  | @step l o1 s1 o2 s2 ev t h1 h2 h3 h4 _ ih =>
    obtain ⟨hi, ih⟩ := ih
    have hi2 : I o2 := by have := hω.inv o1 ev.x ev.gamma hi; rw [h3] at this; exact this
    refine ⟨hi2, ?_⟩
    rw [bestOf_snoc]
    rcases hg : ev.gamma1 with _ | γ1
    · exact ih
    · rw [hg] at h3
      obtain ⟨a1, a2, a3, -⟩ := hω.value _ _ _ _ _ _ hi h3
      refine .inr ⟨ev.x, by rw [← a3]; rfl, a1, a2.trans ?_⟩
      rw [h2]
      rcases ih with h | ⟨x, h, -, h5⟩
      · rw [h]
      · rw [h]; exact h5

/-- **C77.** Minimise a convex `f` subject to `c ≤ 0` (`c` convex) with `cutting_plane_optim`, an `Ell` object and a subgradient oracle. Let `A` be the feasible part of the initial ellipsoid, of positive
volume, `x*` any point of `A`, `f ≤ M` on `A`, `0 < ε ≤ 1`, `tolerance ≤ 0`, initial value worse than `γ* = f(x*) + ε (M - f(x*))`, and
`max_iters > 2(n+1)(n ln(1/ε) + ln(vol(E)/vol(A)))`. Then the call returns a feasible point `x` together with its value `γ = f(x) ≤ γ*`, or it raises, and then the oracle had reported
a feasible point with value below `γ*` before. -/
theorem C77_convex_accuracy (hf : ConvexOn ℝ Set.univ f) (hc : ConvexOn ℝ Set.univ c) (hω : SubgradOracle I f c omega)
    (o : O) (ho : I o) (e : Ell n) (he : e.WF) (g0 : ℝ) (opts : Options ℝ) (htol : opts.tolerance ≤ 0)
    (hvol : volume {y | y ∈ e.region ∧ c y ≤ 0} ≠ 0) (xs : Vec n) (hxs : xs ∈ e.region) (hcs : c xs ≤ 0) (M : ℝ)
    (hM : ∀ y ∈ e.region, c y ≤ 0 → f y ≤ M) (hlt : f xs < M) (ε : ℝ) (hε : 0 < ε) (hε1 : ε ≤ 1)
    (hg0 : f xs + ε * (M - f xs) < g0)
    (hmax : 2 * ((n : ℝ) + 1) * (n * Real.log (1 / ε) +
      Real.log ((volume e.region).toReal / (volume {y | y ∈ e.region ∧ c y ≤ 0}).toReal)) < opts.maxIters) :
    (∃ o' e' x k, optim omega (Ell.space n) ltReal o e (OrderDual.toDual g0) opts =
        (o', e', .ok (some x, OrderDual.toDual (f x), k)) ∧ c x ≤ 0 ∧ f x ≤ f xs + ε * (M - f xs)) ∨
    (∃ o' e' fault, optim omega (Ell.space n) ltReal o e (OrderDual.toDual g0) opts = (o', e', .error fault) ∧
      ∃ l o1 e1, OptimTrace omega (Ell.space n) ltReal opts.tolerance o e (OrderDual.toDual g0) l o1 e1 ∧
        ∃ x, c x ≤ 0 ∧ f x < f xs + ε * (M - f xs) ∧
          (bestOf (OrderDual.toDual g0) l = (some x, OrderDual.toDual (f x)) ∨
            (x = e1.xc ∧ ∃ o2 cut, omega o1 x (bestOf (OrderDual.toDual g0) l).2 = (o2, .ok (cut, some (OrderDual.toDual (f x))))))) := by
  set γs := f xs + ε * (M - f xs) with hγs
  have hpos : f xs < γs := by rw [hγs]; nlinarith
  have hU := hω.properUpTo e hcs hpos
  have hsub : ∀ γ, convexLevel e f c γ ⊆ e.region := fun γ y hy => hy.1
  obtain ⟨hv, hb⟩ := volBound_le_of_shrink he (F := convexLevel e f c (OrderDual.toDual γs)) xs hε hvol (by
    rintro y ⟨hy, hcy⟩
    have ha : 0 ≤ 1 - ε := by linarith
    refine ⟨ellipsoid_convex e he hxs hy ha hε.le (by ring), ?_, ?_⟩
    · have := hc.2 (Set.mem_univ xs) (Set.mem_univ y) ha hε.le (by ring)
      simp only [smul_eq_mul] at this
      nlinarith
    · have := hf.2 (Set.mem_univ xs) (Set.mem_univ y) ha hε.le (by ring)
      simp only [smul_eq_mul] at this
      show f _ ≤ γs
      have := hM y hy hcy
      rw [hγs]
      nlinarith) (fun y hy => hy.1) (hsub _)
  obtain ⟨-, h2⟩ := C73_optim_up_to (convexLevel_antitone e f c) hU o ho e he (OrderDual.toDual g0) (hsub _) hv opts
  rcases h2 htol (lt_of_le_of_lt hb hmax) with ⟨o', e', xb, γ, k, h3, h4⟩ | ⟨o', e', fault, h3, l, o1, e1, ht, h4⟩
  · left
    obtain ⟨l, o1, s1, ht, hk, hend⟩ := C24_optim_consistent_pair _ _ _ _ _ _ _ _ _ _ _ _ h3
    have h4' : OrderDual.ofDual γ ≤ γs := h4
    obtain ⟨hi, hbest⟩ := hω.best ho ht
    have hfin : ∀ p : Option (Vec n) × ℝᵒᵈ, p = (xb, γ) → (p = (none, OrderDual.toDual g0) ∨
        ∃ x, p = (some x, OrderDual.toDual (f x)) ∧ c x ≤ 0 ∧ f x ≤ g0) →
        ∃ x, xb = some x ∧ γ = OrderDual.toDual (f x) ∧ c x ≤ 0 := by
      rintro p hp (h | ⟨x, h, h5, -⟩)
      · rw [hp, Prod.mk.injEq] at h
        obtain ⟨-, rfl⟩ := h
        exact absurd hg0 (not_lt.mpr h4')
      · rw [hp, Prod.mk.injEq] at h
        exact ⟨x, h.1, h.2, h5⟩
    obtain ⟨x, rfl, rfl, h5⟩ : ∃ x, xb = some x ∧ γ = OrderDual.toDual (f x) ∧ c x ≤ 0 := by
      rcases hend with ⟨-, hp, -⟩ | ⟨-, ev, st, h1, h2, h3, -, -, hp⟩
      · exact hfin _ hp.symm hbest
      · refine hfin _ hp.symm ?_
        rw [bestOf_snoc]
        rcases hg : ev.gamma1 with _ | γ1
        · exact hbest
        · rw [hg] at h3
          obtain ⟨a1, a2, a3, -⟩ := hω.value _ _ _ _ _ _ hi h3
          refine .inr ⟨ev.x, by rw [← a3]; rfl, a1, a2.trans ?_⟩
          rw [h2]
          rcases hbest with h | ⟨x, h, -, h5⟩
          · rw [h]; exact le_rfl
          · rw [h]; exact h5
    exact ⟨o', e', x, k, h3, h5, h4'⟩
  · right
    refine ⟨o', e', fault, h3, l, o1, e1, ht, ?_⟩
    obtain ⟨hi, hbest⟩ := hω.best ho ht
    have key : OrderDual.toDual γs < (bestOf (OrderDual.toDual g0) l).2 → ∃ x, c x ≤ 0 ∧ f x < γs ∧
        bestOf (OrderDual.toDual g0) l = (some x, OrderDual.toDual (f x)) := by
      intro h5
      rcases hbest with h | ⟨x, h, h6, -⟩
      · rw [h] at h5; exact absurd hg0 (not_lt.mpr (le_of_lt h5))
      · rw [h] at h5; exact ⟨x, h6, h5, h⟩
    rcases h4 with h4 | ⟨ev, o2, h1, h2, h3, h4⟩
    · obtain ⟨x, a1, a2, a3⟩ := key h4
      exact ⟨x, a1, a2, .inl a3⟩
    · rw [bestOf_snoc_snd _ l ev h2] at h4
      rcases hg : ev.gamma1 with _ | γ1
      · rw [hg] at h4
        obtain ⟨x, a1, a2, a3⟩ := key (by rw [← h2]; exact h4)
        exact ⟨x, a1, a2, .inl a3⟩
      · rw [hg] at h3 h4
        obtain ⟨a1, a2, a3, -⟩ := hω.value _ _ _ _ _ _ hi h3
        have a4 : γ1 = OrderDual.toDual (f ev.x) := by rw [← a3]; rfl
        rw [Option.getD_some, a4] at h4
        refine ⟨ev.x, a1, h4, .inr ⟨h1, o2, ev.cut, ?_⟩⟩
        rw [← h2, ← a4]; exact h3

end

/-- An example: minimise `x₀` subject to `x₁ ≤ 0`. -/
noncomputable def edgeOracle : OracleOptim Unit (Vec 2) (Cut 2) ℝᵒᵈ := by
  classical
  exact fun _ x γ => ((), .ok (
    if 0 < x 1 then ((![0, 1], .scalar (x 1)), none)
    else if OrderDual.ofDual γ < x 0 then ((![1, 0], .scalar (x 0 - OrderDual.ofDual γ)), none)
    else ((![1, 0], .scalar 0), some (OrderDual.toDual (x 0)))))

theorem edgeOracle_subgrad : SubgradOracle (fun _ => True) (fun x : Vec 2 => x 0) (fun x => x 1) edgeOracle where
  inv _ _ _ _ := trivial
  total o x γ o' e _ h := by unfold edgeOracle at h; simp at h
  cut o x γ o' cut _ h := by
    unfold edgeOracle at h
    split_ifs at h with h1 h2 <;> simp only [Prod.mk.injEq, Except.ok.injEq, reduceCtorEq, and_false] at h
    · obtain ⟨-, rfl, -⟩ := h
      exact ⟨_, .inl ⟨h1, fun y => by simp [dotProduct, Fin.sum_univ_two], rfl⟩⟩
    · obtain ⟨-, rfl, -⟩ := h
      exact ⟨_, .inr ⟨h2, fun y => by simp [dotProduct, Fin.sum_univ_two], rfl⟩⟩
  value o x γ o' cut γ1 _ h := by
    unfold edgeOracle at h
    split_ifs at h with h1 h2 <;> simp only [Prod.mk.injEq, Except.ok.injEq, reduceCtorEq, and_false, Option.some.injEq] at h
    obtain ⟨-, rfl, rfl⟩ := h
    exact ⟨not_lt.mp h1, not_lt.mp h2, rfl, _, fun y => by simp [dotProduct, Fin.sum_univ_two], rfl⟩

/-- The hypotheses of C77 are met: the unit disc, `x* = (-1, 0)`, `M = 1`. -/
example : ∃ e : Ell 2, e.WF ∧ ConvexOn ℝ Set.univ (fun x : Vec 2 => x 0) ∧ ConvexOn ℝ Set.univ (fun x : Vec 2 => x 1) ∧
    SubgradOracle (fun _ => True) (fun x : Vec 2 => x 0) (fun x => x 1) edgeOracle ∧
    volume {y : Vec 2 | y ∈ e.region ∧ y 1 ≤ 0} ≠ 0 ∧ ![-1, 0] ∈ e.region ∧ (∀ y ∈ e.region, y 1 ≤ 0 → y 0 ≤ 1) := by
  obtain ⟨e, he⟩ := (C60_init_rejects (.scalar (1 ^ 2)) (![0, 0] : Vec 2)).mpr le_rfl
  obtain ⟨e2, he2⟩ := (C60_init_rejects (.scalar ((1 / 4) ^ 2)) (![0, -1 / 2] : Vec 2)).mpr le_rfl
  obtain ⟨w, hreg, -⟩ := init_ball one_pos he
  obtain ⟨w2, hreg2, -⟩ := init_ball (by norm_num) he2
  refine ⟨e, w, ⟨convex_univ, fun x _ y _ a b _ _ _ => by simp⟩, ⟨convex_univ, fun x _ y _ a b _ _ _ => by simp⟩,
    edgeOracle_subgrad, ?_, ?_, ?_⟩
  · refine fun h0 => WF.volume_ne_zero w2 (measure_mono_null (fun y hy => ?_) h0)
    rw [hreg2] at hy
    simp [ball, dotProduct, Fin.sum_univ_two] at hy
    refine ⟨?_, ?_⟩
    · rw [hreg]
      simp [ball, dotProduct, Fin.sum_univ_two]
      nlinarith [mul_self_nonneg (y 0), mul_self_nonneg (y 1), mul_self_nonneg (y 1 + 3 / 4)]
    · nlinarith [mul_self_nonneg (y 0), mul_self_nonneg (y 1)]
  · rw [hreg]; simp [ball, dotProduct, Fin.sum_univ_two]
  · intro y hy _
    rw [hreg] at hy
    simp [ball, dotProduct, Fin.sum_univ_two] at hy
    nlinarith [mul_self_nonneg (y 1)]

end Ellalgo
