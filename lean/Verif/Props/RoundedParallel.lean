import Verif.Props.RoundedContainment
import Verif.Lemmas.RoundedConverge
import Verif.Lemmas.RoundedPair

/-! # C112: parallel cuts in floating point -/

namespace Ellalgo

open Matrix EllCalcCore

variable {n : ℕ}

set_option maxHeartbeats 1000000 in
/-- The strategies of the three methods for a pair of offsets: either the call is that for the first offset alone, or the formulas of the parallel cut are used. -/
theorem Arith.strategy_pair {A : Arith} {u γ ε a κ ω oh β0 β1 : ℝ} {N : ℕ} (hA : A.Accurate u γ N) (hu : 0 ≤ u) (huε : u ≤ ε) (hnu : n * u ≤ ε) (hn : 2 ≤ n) {e : Ell n} (he : A.calcInit (n : ℤ) = .ok e.helper) (hek : e.kappa = κ) (hκ : 0 < κ)
    (hω : 0 < ω) (hoh : Rel (41 / 10 * ε) oh ω) {g : Vec n} (hoh' : A.dot g (A.mv e.mq g) = oh) (hg : g ≠ 0) (hd : e.noDeferTrick = false) (mt : Method) (hβ0 : 0 ≤ mt.offset β0) (ha0 : 0 < a) (ha1 : a ≤ 1) (hβ : mt.offset β0 ≤ (1 - a) * Real.sqrt (κ * ω))
    (hw : mt.offset β0 + a * Real.sqrt (κ * ω) ≤ β1) (hε : 100000 * ε ≤ a ^ 4) :
    A.update e mt (g, .seq [some β0, some β1]) = A.update e mt (g, .scalar β0) ∨
    WideSlab a (Real.sqrt (κ * ω)) (mt.offset β0) β1 ∧ ∃ p, ParRel (170 * (ε / a ^ 2)) p (parParams n (mt.offset β0) β1 (Real.sqrt (κ * ω) ^ 2)) ∧
    A.update e mt (g, .seq [some β0, some β1]) = ({ e with
      xc := fun i => A.sub (e.xc i) (A.mul (A.div p.rho oh) (A.mv e.mq g i))
      mq := fun i j => A.sub (e.mq i j) (A.mul (A.div p.sigma oh) (A.mul (A.mv e.mq g i) (A.mv e.mq g j)))
      kappa := A.mul e.kappa p.delta
      tsq := A.mul e.kappa oh }, .ok .success) := by
  have hε0 : 0 ≤ ε := hu.trans huε
  obtain ⟨he1, -, -, he4, he5⟩ := eps_a hε0 ha0 ha1 hε
  have hc := Arith.coreRel hA hu (by linarith) hn he
  obtain ⟨hh, hi, hpc⟩ := Arith.core_halfN he
  have R := fun x => (hA.rel hu (by linarith) x).mono (show 2 * u ≤ 2 * ε by linarith)
  have h0 : A.dot g (A.mv e.mq g) ≠ 0 := by rw [hoh']; exact (hoh.pos hω).ne'
  have hκω : 0 < κ * ω := mul_pos hκ hω
  have hτ : 0 < Real.sqrt (κ * ω) := Real.sqrt_pos.mpr hκω
  have hτ2 : Real.sqrt (κ * ω) ^ 2 = κ * ω := Real.sq_sqrt hκω.le
  have rt : Rel (61 / 10 * ε) (A.mul e.kappa oh) (Real.sqrt (κ * ω) ^ 2) := by rw [hek, hτ2]; exact ((R _).trans (hoh.const_mul κ)).mono (by linarith)
  generalize Real.sqrt (κ * ω) = τ at *
  have hb1 : 0 < β1 := lt_of_lt_of_le (by positivity) hw
  have hT := pow_pos hτ 2
  have hW : A.mul β1 β1 < A.mul e.kappa oh → WideSlab a τ (mt.offset β0) β1 := fun hlt => by
    refine ⟨ha0, ha1, hτ, hβ0, hβ, hw, ?_⟩
    have h1 := (abs_le.mp (rt.abs_sub_le hT.le (by linarith))).2
    have h2 := (abs_le.mp (hA.rnd (β1 * β1))).1
    rw [abs_of_pos (mul_pos hb1 hb1)] at h2
    have h3 : u * (β1 * β1) ≤ ε * (β1 * β1) := mul_le_mul_of_nonneg_right huε (by positivity)
    have h4 : A.mul β1 β1 = A.rnd (β1 * β1) := rfl
    have h5 : (61 / 10 * ε + (61 / 10 * ε) ^ 2) * τ ^ 2 ≤ 62 / 10 * ε * τ ^ 2 := mul_le_mul_of_nonneg_right (by nlinarith) hT.le
    have h6 : (1 - ε) * (β1 * β1) ≤ (1 + 62 / 10 * ε) * τ ^ 2 := by linarith
    have h7 : (1 + 62 / 10 * ε) * τ ^ 2 ≤ (1 - ε) * ((1 + a ^ 2 / 100) * τ ^ 2) := by
      rw [← mul_assoc]
      refine mul_le_mul_of_nonneg_right ?_ hT.le
      have h8 : a ^ 4 ≤ a ^ 2 := by nlinarith [pow_pos ha0 2]
      nlinarith
    have h8 := le_of_mul_le_mul_left (h6.trans h7) (by linarith)
    nlinarith
  have hlen : ¬ (([some β0, some β1] : List (Option ℝ)).length < 2 ∨ (!e.helper.useParallelCut) = true) := by simp [hpc]
  have hidx : ([some β0, some β1] : List (Option ℝ))[1]? = some (some β1) := rfl
  have hfst : EllCalc.firstOffset [some β0, some β1] = .ok β0 := rfl
  cases mt with
  | bias =>
    change β0 + a * τ ≤ β1 at hw
    change A.updateCore e (g, .seq [some β0, some β1]) (A.calcSingleOrParallel e.helper) = A.updateCore e (g, .scalar β0) (A.calcSingleOrParallel e.helper) ∨ _
    have hord : ¬ β1 < β0 := not_lt.mpr (by nlinarith [mul_pos ha0 hτ])
    have hcp : A.calcSingleOrParallel e.helper (.seq [some β0, some β1]) (A.mul e.kappa oh) = A.calcParallel e.helper β0 β1 (A.mul e.kappa oh) := by
      simp only [Arith.calcSingleOrParallel, if_neg hlen, hidx, hfst, except_ok_bind]
    by_cases hbr : A.mul e.kappa oh ≤ A.mul β1 β1
    · left
      have : A.calcSingleOrParallel e.helper (.seq [some β0, some β1]) (A.mul e.kappa oh) = A.calcSingleOrParallel e.helper (.scalar β0) (A.mul e.kappa oh) := by
        rw [hcp]
        simp only [Arith.calcParallel, if_neg hord, if_pos (And.intro hb1 hbr), Arith.calcSingleOrParallel]
      unfold Arith.updateCore
      simp only [hoh', this]
    · right
      have W := hW (not_le.mp hbr)
      change WideSlab a τ β0 β1 at W
      refine ⟨W, ?_⟩
      obtain ⟨-, p, hp, hrel⟩ := Arith.parFast_rel hA hu huε hnu hn hc hh W rt hε
      refine ⟨p, hrel, ?_⟩
      change A.updateCore e (g, .seq [some β0, some β1]) (A.calcSingleOrParallel e.helper) = _
      rw [Arith.updateCore_some (st := .success) (p := p) hg h0 hd]
      · simp only [hoh']
      · simp only [hoh']
        rw [hcp]
        unfold Arith.calcParallel Arith.calcParallelBiasCut
        rw [← hc.hnF] at hp
        simp only [if_neg hord, if_neg (show ¬ (β1 > 0 ∧ A.mul e.kappa oh ≤ A.mul β1 β1) from fun h => hbr h.2), hp, except_ok_bind]
  | central =>
    change (0 : ℝ) + a * τ ≤ β1 at hw
    change A.updateCore e (g, .seq [some β0, some β1]) (A.calcSingleOrParallelCentralCut e.helper) = A.updateCore e (g, .scalar β0) (A.calcSingleOrParallelCentralCut e.helper) ∨ _
    by_cases hbr : A.mul e.kappa oh ≤ A.mul β1 β1
    · left
      have : A.calcSingleOrParallelCentralCut e.helper (.seq [some β0, some β1]) (A.mul e.kappa oh) = A.calcSingleOrParallelCentralCut e.helper (.scalar β0) (A.mul e.kappa oh) := by
        simp only [Arith.calcSingleOrParallelCentralCut, if_neg hlen, hidx, if_neg hb1.not_gt, if_pos hbr]
      unfold Arith.updateCore
      simp only [hoh', this]
    · right
      have W := hW (not_le.mp hbr)
      change WideSlab a τ 0 β1 at W
      refine ⟨W, ?_⟩
      obtain ⟨p, hp, hrel⟩ := Arith.parCentral_rel hA hu huε hn hh hi W rt hε
      refine ⟨p, hrel, ?_⟩
      change A.updateCore e (g, .seq [some β0, some β1]) (A.calcSingleOrParallelCentralCut e.helper) = _
      rw [Arith.updateCore_some (st := .success) (p := p) hg h0 hd]
      · simp only [hoh']
      · simp only [hoh', Arith.calcSingleOrParallelCentralCut, if_neg hlen, hidx, if_neg hb1.not_gt, if_neg hbr, hp, except_ok_bind]
  | q =>
    change β0 + a * τ ≤ β1 at hw
    change A.updateCore e (g, .seq [some β0, some β1]) (A.calcSingleOrParallelQ e.helper) = A.updateCore e (g, .scalar β0) (A.calcSingleOrParallelQ e.helper) ∨ _
    have hord : ¬ β1 < β0 := not_lt.mpr (by nlinarith [mul_pos ha0 hτ])
    have hcp : A.calcSingleOrParallelQ e.helper (.seq [some β0, some β1]) (A.mul e.kappa oh) = A.calcParallelQ e.helper β0 β1 (A.mul e.kappa oh) := by
      simp only [Arith.calcSingleOrParallelQ, if_neg hlen, hidx, hfst, except_ok_bind]
    by_cases hbr : A.mul e.kappa oh ≤ A.mul β1 β1
    · left
      have : A.calcSingleOrParallelQ e.helper (.seq [some β0, some β1]) (A.mul e.kappa oh) = A.calcSingleOrParallelQ e.helper (.scalar β0) (A.mul e.kappa oh) := by
        rw [hcp]
        simp only [Arith.calcParallelQ, if_neg hord, if_pos (And.intro hb1 hbr), Arith.calcSingleOrParallelQ]
      unfold Arith.updateCore
      simp only [hoh', this]
    · right
      have W := hW (not_le.mp hbr)
      change WideSlab a τ β0 β1 at W
      refine ⟨W, ?_⟩
      obtain ⟨hη, p, hp, hrel⟩ := Arith.parFast_rel hA hu huε hnu hn hc hh W rt hε
      refine ⟨p, hrel, ?_⟩
      change A.updateCore e (g, .seq [some β0, some β1]) (A.calcSingleOrParallelQ e.helper) = _
      rw [Arith.updateCore_some (st := .success) (p := p) hg h0 hd]
      · simp only [hoh']
      · simp only [hoh']
        rw [hcp]
        unfold Arith.calcParallelQ
        rw [← hc.nF] at hp hη
        simp only [if_neg hord, if_neg (show ¬ (β1 > 0 ∧ A.mul e.kappa oh ≤ A.mul β1 β1) from fun h => hbr h.2), if_neg hη.not_ge, hp, except_ok_bind]

/-- The parameters that a floating-point call approximates: those of the single cut or those of the parallel cut. -/
def PairParams (n : ℕ) (a τ β0 β1 : ℝ) (q : Params) : Prop :=
  (q = biasParams n β0 τ) ∨ (WideSlab a τ β0 β1 ∧ q = parParams n β0 β1 (τ ^ 2))

/-- What one floating-point cut with a pair of offsets does. -/
structure PairFacts (e e' : Ell n) (g : Vec n) (β0 β1 a ε ξ : ℝ) (q : Params) : Prop where
  helper : e'.helper = e.helper
  defer : e'.noDeferTrick = e.noDeferTrick
  symm : e'.mq.IsSymm
  posDef : e'.mq.PosDef
  kappa_pos : 0 < e'.kappa
  contains : ∀ φ s : ℝ, 1 ≤ φ → 0 ≤ s → ∀ x ∈ Spec.ellipsoid e.mq (e.kappa * φ ^ 2) e.xc, g ⬝ᵥ (x - e.xc) + β0 ≤ s * Real.sqrt (e.kappa * (g ⬝ᵥ (e.mq *ᵥ g))) → -(s * Real.sqrt (e.kappa * (g ⬝ᵥ (e.mq *ᵥ g)))) ≤ g ⬝ᵥ (x - e.xc) + β1 →
    x ∈ Spec.ellipsoid e'.mq (e'.kappa * ((1 + 2500 * (ε / a ^ 4) + 5 * (ξ / a)) * (1 + 3 / a * (φ - 1 + s)) ^ 2)) e'.xc
  shape : ∀ v : Vec n, (1 - q.sigma - 190 * (ε / a ^ 2)) * (v ⬝ᵥ (e.mq *ᵥ v)) ≤ v ⬝ᵥ (e'.mq *ᵥ v) ∧ v ⬝ᵥ (e'.mq *ᵥ v) ≤ (1 + 190 * (ε / a ^ 2)) * (v ⬝ᵥ (e.mq *ᵥ v))
  centre : ∀ v : Vec n, |v ⬝ᵥ (e'.xc - e.xc)| ≤ Real.sqrt (v ⬝ᵥ (e.mq *ᵥ v)) * (1 + (ξ + 185 * (ε / a ^ 2))) * Real.sqrt e.kappa
  kappa : |e'.kappa - e.kappa * q.delta| ≤ 173 * (ε / a ^ 2) * (e.kappa * q.delta)
  near : ∀ v : Vec n, v ⬝ᵥ (e'.mq *ᵥ v) ≤ v ⬝ᵥ ((e.mq - (q.sigma / (g ⬝ᵥ (e.mq *ᵥ g))) • vecMulVec (e.mq *ᵥ g) (e.mq *ᵥ g)) *ᵥ v) + 190 * (ε / a ^ 2) * (v ⬝ᵥ (e.mq *ᵥ v))
  tsq : e.kappa * (g ⬝ᵥ (e.mq *ᵥ g)) ≤ 2 * e'.tsq

set_option maxHeartbeats 1000000 in
/-- The same for one offset. -/
theorem Arith.single_pair_step {A : Arith} {u γ m L a β0 : ℝ} (β1 : ℝ) (hA : A.Accurate u γ n) (hu : 0 ≤ u) (huγ : u ≤ γ) (hn : 2 ≤ n) (e : Ell n) (he : A.calcInit (n : ℤ) = .ok e.helper) (hd : e.noDeferTrick = false) (hκ : 0 < e.kappa)
    (hsymm : e.mq.IsSymm) (hm : 0 < m) (hlow : ∀ v : Vec n, m * (v ⬝ᵥ v) ≤ v ⬝ᵥ (e.mq *ᵥ v)) (hup : ∀ v : Vec n, v ⬝ᵥ (e.mq *ᵥ v) ≤ L * (v ⬝ᵥ v))
    {g : Vec n} (hg : g ≠ 0) (mt : Method) (hβ0 : 0 ≤ mt.offset β0) (ha0 : 0 < a) (ha1 : a ≤ 1) (hβ : mt.offset β0 ≤ (1 - a) * Real.sqrt (e.kappa * (g ⬝ᵥ (e.mq *ᵥ g))))
    (hε : 100000 * epsOf n γ m L ≤ a ^ 4) (hξ : 1000 * (u * nrm e.xc / Real.sqrt (e.kappa * m)) ≤ a) :
    (A.update e mt (g, .scalar β0)).2 = .ok .success ∧ ∃ q, PairParams n a (Real.sqrt (e.kappa * (g ⬝ᵥ (e.mq *ᵥ g)))) (mt.offset β0) β1 q ∧
    PairFacts e (A.update e mt (g, .scalar β0)).1 g (mt.offset β0) β1 a (epsOf n γ m L) (u * nrm e.xc / Real.sqrt (e.kappa * m)) q := by
  have D : CutData A u γ e.mq m L := ⟨hA, hu, huγ, hn, hsymm, hm, hlow, hup⟩
  have hε0 := D.eps_nonneg
  have hξ0 : 0 ≤ u * nrm e.xc / Real.sqrt (e.kappa * m) := by have := nrm_nonneg e.xc; positivity
  obtain ⟨he1, he2, he3, he4, he5⟩ := eps_a hε0 ha0 ha1 hε
  have ha4 : a ^ 4 ≤ a := by nlinarith [pow_pos ha0 2, pow_pos ha0 3]
  obtain ⟨x1, x2⟩ := Arith.single_extra hA hu huγ hn e he hd hκ hsymm hm hlow hup hg mt hβ0 ha0 ha1 hβ (by linarith)
  obtain ⟨h1, F⟩ := Arith.single_step hA hu huγ hn e he hd hκ hsymm hm hlow hup hg mt hβ0 ha0 ha1 hβ (by linarith) hξ
  refine ⟨h1, _, Or.inl rfl, F.helper, F.defer, F.symm, F.posDef, F.kappa_pos, fun φ s hφ hs x hx hc0 _ => ?_, fun v => ?_, fun v => ?_, ?_, fun v => ?_, x2⟩
  · have h2 := F.contains φ s hφ hs x hx hc0
    have hn2 : (2 : ℝ) ≤ n := by exact_mod_cast hn
    rw [← supportSet_eq_ellipsoid F.posDef (by have := F.kappa_pos; have : 0 ≤ φ - 1 + s := by linarith
                                               positivity)] at h2 ⊢
    refine supportSet_mono F.posDef.posSemidef.dotProduct_mulVec_nonneg (mul_le_mul_of_nonneg_left ?_ F.kappa_pos.le) h2
    have h3 : epsOf n γ m L / a ≤ epsOf n γ m L / a ^ 4 := div_le_div_of_nonneg_left hε0 (by positivity) ha4
    have h4 : ((n : ℝ) + 1) / (n * a) ≤ 3 / a := by
      rw [div_le_div_iff₀ (by positivity) ha0]
      nlinarith
    have h5 : 0 ≤ φ - 1 + s := by linarith
    have h6 : 0 ≤ epsOf n γ m L / a ^ 4 := by positivity
    have h7 : 0 ≤ u * nrm e.xc / Real.sqrt (e.kappa * m) / a := by positivity
    refine mul_le_mul (by linarith) (pow_le_pow_left₀ (by positivity) ?_ 2) (by positivity) (by positivity)
    have := mul_le_mul_of_nonneg_right h4 h5
    linarith
  · obtain ⟨h2, h3⟩ := F.shape v
    have hQ := D.quad_nonneg v
    have h4 : 42 * epsOf n γ m L * (v ⬝ᵥ (e.mq *ᵥ v)) ≤ 190 * (epsOf n γ m L / a ^ 2) * (v ⬝ᵥ (e.mq *ᵥ v)) := mul_le_mul_of_nonneg_right (by linarith) hQ
    exact ⟨by linarith, by linarith⟩
  · refine (F.centre v).trans ?_
    gcongr
    linarith
  · refine F.kappa.trans (mul_le_mul_of_nonneg_right (by linarith) ?_)
    have hn2 : (2 : ℝ) ≤ n := by exact_mod_cast hn
    have := (abs_nonneg _).trans F.kappa
    by_contra hneg
    push Not at hneg
    have h5 := mul_nonpos_of_nonneg_of_nonpos (show 0 ≤ 42 * (epsOf n γ m L / a) by positivity) hneg.le
    have h6 := abs_eq_zero.mp (le_antisymm (F.kappa.trans h5) (abs_nonneg _))
    have := F.kappa_pos
    linarith
  · refine (x1 v).trans ?_
    have h4 : 42 * epsOf n γ m L * (v ⬝ᵥ (e.mq *ᵥ v)) ≤ 190 * (epsOf n γ m L / a ^ 2) * (v ⬝ᵥ (e.mq *ᵥ v)) := mul_le_mul_of_nonneg_right (by linarith) (D.quad_nonneg v)
    linarith

set_option maxHeartbeats 1000000 in
open Spec in
/-- One floating-point cut with a pair of offsets. -/
theorem Arith.pair_step {A : Arith} {u γ m L a β0 β1 : ℝ} (hA : A.Accurate u γ n) (hu : 0 ≤ u) (huγ : u ≤ γ) (hnu : n * u ≤ γ) (hn : 2 ≤ n) (e : Ell n) (he : A.calcInit (n : ℤ) = .ok e.helper) (hd : e.noDeferTrick = false) (hκ : 0 < e.kappa)
    (hsymm : e.mq.IsSymm) (hm : 0 < m) (hlow : ∀ v : Vec n, m * (v ⬝ᵥ v) ≤ v ⬝ᵥ (e.mq *ᵥ v)) (hup : ∀ v : Vec n, v ⬝ᵥ (e.mq *ᵥ v) ≤ L * (v ⬝ᵥ v))
    {g : Vec n} (hg : g ≠ 0) (mt : Method) (hβ0 : 0 ≤ mt.offset β0) (ha0 : 0 < a) (ha1 : a ≤ 1) (hβ : mt.offset β0 ≤ (1 - a) * Real.sqrt (e.kappa * (g ⬝ᵥ (e.mq *ᵥ g))))
    (hw : mt.offset β0 + a * Real.sqrt (e.kappa * (g ⬝ᵥ (e.mq *ᵥ g))) ≤ β1) (hε : 100000 * epsOf n γ m L ≤ a ^ 4) (hξ : 1000 * (u * nrm e.xc / Real.sqrt (e.kappa * m)) ≤ a) :
    (A.update e mt (g, .seq [some β0, some β1])).2 = .ok .success ∧ ∃ q, PairParams n a (Real.sqrt (e.kappa * (g ⬝ᵥ (e.mq *ᵥ g)))) (mt.offset β0) β1 q ∧
    PairFacts e (A.update e mt (g, .seq [some β0, some β1])).1 g (mt.offset β0) β1 a (epsOf n γ m L) (u * nrm e.xc / Real.sqrt (e.kappa * m)) q := by
  have D : CutData A u γ e.mq m L := ⟨hA, hu, huγ, hn, hsymm, hm, hlow, hup⟩
  have hε0 := D.eps_nonneg
  have hξ0 : 0 ≤ u * nrm e.xc / Real.sqrt (e.kappa * m) := by have := nrm_nonneg e.xc; positivity
  have hω : 0 < g ⬝ᵥ (e.mq *ᵥ g) := D.btw.posDef.dotProduct_mulVec_pos hg
  have huε := D.u_le_eps
  have hγε := D.γ_le
  obtain ⟨he1, he2, he3, he4, he5⟩ := eps_a hε0 ha0 ha1 hε
  have hoh := D.omega_rel hω (by linarith)
  rcases Arith.strategy_pair (β0 := β0) (β1 := β1) hA hu huε (hnu.trans hγε) hn he rfl hκ hω hoh rfl hg hd mt hβ0 ha0 ha1 hβ hw hε with hsame | ⟨W, p, hp, hupd⟩
  · rw [hsame]
    exact Arith.single_pair_step β1 hA hu huγ hn e he hd hκ hsymm hm hlow hup hg mt hβ0 ha0 ha1 hβ hε hξ
  · have R := fun x => (hA.rel hu (by linarith) x).mono (show 2 * u ≤ 2 * epsOf n γ m L by linarith)
    have ra : Rel (177 * (epsOf n γ m L / a ^ 2)) (A.div p.rho (A.dot g (A.mv e.mq g))) _ := ((R _).trans (hp.rho.div hoh)).mono (by linarith)
    have rc : Rel (177 * (epsOf n γ m L / a ^ 2)) (A.div p.sigma (A.dot g (A.mv e.mq g))) _ := ((R _).trans (hp.sigma.div hoh)).mono (by linarith)
    have rk : Rel (172 * (epsOf n γ m L / a ^ 2)) (A.mul e.kappa p.delta) _ := ((R _).trans (hp.delta.const_mul e.kappa)).mono (by linarith)
    obtain ⟨h1, h2, h3, h4, h5, h6⟩ := D.par_contains hκ (x0 := e.xc) hω W ra rc rk hε hξ
    have hs' : (A.update e mt (g, .seq [some β0, some β1])).1.mq.IsSymm := by
      have := (C90_symmetric A e hsymm [(mt, (g, .seq [some β0, some β1]))]).1
      exact this
    rw [hupd] at hs' ⊢
    have hpd : Matrix.PosDef (fun i j => A.sub (e.mq i j) (A.mul (A.div p.sigma (A.dot g (A.mv e.mq g))) (A.mul (A.mv e.mq g i) (A.mv e.mq g j))) : Mat n) :=
      posDef_of_symm hs' h2
    have hn2 : (2 : ℝ) ≤ n := by exact_mod_cast hn
    have hσ0 := (W.sigma_pos hn2).le
    have hσ1 := (W.sigma_lt hn2).le
    refine ⟨rfl, _, Or.inr ⟨W, rfl⟩, rfl, rfl, hs', hpd, h1, fun φ s hφ hs x hx hc0 hc1 => ?_, h4, h5, h6, fun v => ?_, ?_⟩
    rotate_left
    · generalize parParams n (mt.offset β0) β1 (Real.sqrt (e.kappa * (g ⬝ᵥ (e.mq *ᵥ g))) ^ 2) = q at *
      have hs0 : 0 ≤ q.sigma / (g ⬝ᵥ (e.mq *ᵥ g)) := by positivity
      have hc : |A.div p.sigma (A.dot g (A.mv e.mq g)) - q.sigma / (g ⬝ᵥ (e.mq *ᵥ g))| ≤ 178 * (epsOf n γ m L / a ^ 2) * (q.sigma / (g ⬝ᵥ (e.mq *ᵥ g))) := by
        refine (rc.abs_sub_le hs0 (by linarith)).trans (mul_le_mul_of_nonneg_right ?_ hs0)
        nlinarith
      have k1 := (abs_le.mp (D.shape_err g v hs0 hc (by linarith) (by linarith))).2
      rw [div_mul_cancel₀ _ hω.ne'] at k1
      have hQ := D.quad_nonneg v
      have k3 : epsOf n γ m L + q.sigma * (178 * (epsOf n γ m L / a ^ 2) + (1 + 178 * (epsOf n γ m L / a ^ 2)) * (8 * epsOf n γ m L)) ≤ 190 * (epsOf n γ m L / a ^ 2) := by
        have k4 : 178 * (epsOf n γ m L / a ^ 2) + (1 + 178 * (epsOf n γ m L / a ^ 2)) * (8 * epsOf n γ m L) ≤ 189 * (epsOf n γ m L / a ^ 2) := by nlinarith
        have k5 : q.sigma * (178 * (epsOf n γ m L / a ^ 2) + (1 + 178 * (epsOf n γ m L / a ^ 2)) * (8 * epsOf n γ m L)) ≤ 1 * (189 * (epsOf n γ m L / a ^ 2)) := mul_le_mul hσ1 k4 (by positivity) zero_le_one
        linarith
      have k4 := mul_le_mul_of_nonneg_left k3 hQ
      linarith
    · have rt : Rel (61 / 10 * epsOf n γ m L) (A.mul e.kappa (A.dot g (A.mv e.mq g))) (e.kappa * (g ⬝ᵥ (e.mq *ᵥ g))) := ((R _).trans (hoh.const_mul e.kappa)).mono (by linarith)
      have hκω : 0 < e.kappa * (g ⬝ᵥ (e.mq *ᵥ g)) := mul_pos hκ hω
      have k1 := rt.lower hκω.le (by linarith)
      have k2 : (1 : ℝ) / 2 ≤ 1 - (61 / 10 * epsOf n γ m L + (61 / 10 * epsOf n γ m L) ^ 2) := by nlinarith
      have k3 := mul_le_mul_of_nonneg_right k2 hκω.le
      show e.kappa * (g ⬝ᵥ (e.mq *ᵥ g)) ≤ 2 * A.mul e.kappa (A.dot g (A.mv e.mq g))
      linarith
    have hx1 : x ∈ supportSet e.mq (e.kappa * φ ^ 2) e.xc := by rw [supportSet_eq_ellipsoid D.btw.posDef (by positivity)]; exact hx
    have := h3 φ s hφ hs x hx1 hc0 hc1
    rw [supportSet_eq_ellipsoid hpd (by have : 0 ≤ φ - 1 + s := by linarith
                                        positivity)] at this
    exact this

open Spec in
/-- **C112.** One floating-point cut with a pair of offsets keeps every point of the slab, up to an inflation. Let `m ≤ mq ≤ L` as quadratic forms, `ε = γ √n L / m` (`γ` the relative error of an inner product) and
`ξ = u ‖xc‖ / √(κ m)`. Let `β0 ≥ 0` and `β1` be the two offsets (`β0 = 0` for the central method), let `β0 ≤ (1 - a) τ`, and let the slab be at least the fraction `a` of the half-width wide, `β1 - β0 ≥ a τ`; nothing else is assumed of `β1`,
which may lie beyond the ellipsoid. If `ε ≤ a⁴ / 100000` and `ξ ≤ a / 1000` then the call reports `Success`, the shape stays positive definite, and each point of the old ellipsoid between the two hyperplanes lies in the new ellipsoid after
`κ` is multiplied by `1 + 2500 ε / a⁴ + 5 ξ / a`. -/
theorem C112_inflated {A : Arith} {u γ m L a β0 β1 : ℝ} (hA : A.Accurate u γ n) (hu : 0 ≤ u) (hnu : n * u ≤ γ) (hn : 2 ≤ n) (e : Ell n) (he : A.calcInit (n : ℤ) = .ok e.helper) (hd : e.noDeferTrick = false) (hκ : 0 < e.kappa)
    (hsymm : e.mq.IsSymm) (hm : 0 < m) (hlow : ∀ v : Vec n, m * (v ⬝ᵥ v) ≤ v ⬝ᵥ (e.mq *ᵥ v)) (hup : ∀ v : Vec n, v ⬝ᵥ (e.mq *ᵥ v) ≤ L * (v ⬝ᵥ v))
    {g : Vec n} (hg : g ≠ 0) (mt : Method) (hβ0 : 0 ≤ mt.offset β0) (ha0 : 0 < a) (ha1 : a ≤ 1) (hβ : mt.offset β0 ≤ (1 - a) * Real.sqrt (e.kappa * (g ⬝ᵥ (e.mq *ᵥ g))))
    (hw : a * Real.sqrt (e.kappa * (g ⬝ᵥ (e.mq *ᵥ g))) ≤ β1 - mt.offset β0) (hε : 100000 * (γ * Real.sqrt n * (L / m)) ≤ a ^ 4) (hξ : 1000 * (u * Real.sqrt (e.xc ⬝ᵥ e.xc) / Real.sqrt (e.kappa * m)) ≤ a) :
    (A.update e mt (g, .seq [some β0, some β1])).2 = .ok .success ∧ (A.update e mt (g, .seq [some β0, some β1])).1.mq.PosDef ∧ 0 < (A.update e mt (g, .seq [some β0, some β1])).1.kappa ∧
    ∀ x ∈ e.region ∩ slab g (mt.offset β0) β1 e.xc,
      x ∈ ellipsoid (A.update e mt (g, .seq [some β0, some β1])).1.mq
        ((A.update e mt (g, .seq [some β0, some β1])).1.kappa * (1 + 2500 * (γ * Real.sqrt n * (L / m)) / a ^ 4 + 5 * (u * Real.sqrt (e.xc ⬝ᵥ e.xc) / Real.sqrt (e.kappa * m)) / a))
        (A.update e mt (g, .seq [some β0, some β1])).1.xc := by
  have hn2 : (2 : ℝ) ≤ n := by exact_mod_cast hn
  obtain ⟨h1, q, -, h2⟩ := Arith.pair_step (β0 := β0) (β1 := β1) hA hu (by nlinarith) hnu hn e he hd hκ hsymm hm hlow hup hg mt hβ0 ha0 ha1 hβ (by linarith) hε hξ
  refine ⟨h1, h2.posDef, h2.kappa_pos, fun x hx => ?_⟩
  have h3 := h2.contains 1 0 le_rfl le_rfl x (by rw [one_pow, mul_one]; exact hx.1) (by rw [zero_mul]; exact hx.2.1) (by rw [zero_mul, neg_zero]; exact hx.2.2)
  rw [show 2500 * (γ * Real.sqrt n * (L / m)) / a ^ 4 = 2500 * (epsOf n γ m L / a ^ 4) by unfold epsOf; ring,
    show 5 * (u * Real.sqrt (e.xc ⬝ᵥ e.xc) / Real.sqrt (e.kappa * m)) / a = 5 * (u * nrm e.xc / Real.sqrt (e.kappa * m) / a) by unfold nrm; ring]
  rw [sub_self, zero_add, mul_zero, add_zero, one_pow, mul_one] at h3
  exact h3

/-- Double precision (53 bits): from the unit disc, the slab `1/4 ≤ -x₀ ≤ 3/4` by each of the three methods meets the hypotheses of `C112_inflated` with `a = 1/2`. -/
example (mt : Method) : ∃ e : Ell 2, (Arith.ieee 53).ellInit (.scalar 1) 0 = .ok e ∧ ((Arith.ieee 53).update e mt (![1, 0], .seq [some (1 / 4), some (3 / 4)])).2 = .ok .success ∧
    ((Arith.ieee 53).update e mt (![1, 0], .seq [some (1 / 4), some (3 / 4)])).1.mq.PosDef := by
  obtain ⟨c, hc, -⟩ := Arith.core_facts (n := 2) (Arith.ieee_accurate 53 2) (by positivity) (by norm_num) le_rfl
  have hi : (Arith.ieee 53).ellInit (.scalar 1) (0 : Vec 2) = .ok { mq := 1, xc := 0, kappa := 1, tsq := 0, helper := c, noDeferTrick := false } := by
    unfold Arith.ellInit
    rw [hc]
    rfl
  refine ⟨_, hi, ?_⟩
  have hm : (mt.offset (1 / 4) : ℝ) = 0 ∨ (mt.offset (1 / 4) : ℝ) = 1 / 4 := by cases mt <;> simp [Method.offset]
  have h2 : Real.sqrt 2 ≤ 2 := by rw [Real.sqrt_le_left (by norm_num)]; norm_num
  have h := C112_inflated (m := 1) (L := 1) (a := 1 / 2) (β0 := 1 / 4) (β1 := 3 / 4) (Arith.ieee_accurate 53 2) (by positivity) (by norm_num) le_rfl
    ({ mq := 1, xc := 0, kappa := 1, tsq := 0, helper := c, noDeferTrick := false } : Ell 2) hc rfl one_pos Matrix.isSymm_one one_pos (fun v => by simp) (fun v => by simp)
    (g := ![1, 0]) (fun h => by simpa using congrFun h 0) mt (by rcases hm with h | h <;> norm_num [h]) (by norm_num) (by norm_num)
    (by rcases hm with h | h <;> rw [h] <;> norm_num)
    (by rcases hm with h | h <;> rw [h] <;> norm_num)
    (by
      push_cast
      have : (((1 : ℝ) + 2⁻¹ ^ 53) ^ (2 + 1) - 1) * Real.sqrt 2 ≤ ((1 + 2⁻¹ ^ 53) ^ (2 + 1) - 1) * 2 := mul_le_mul_of_nonneg_left h2 (by norm_num)
      calc _ ≤ 100000 * (((1 + (2 : ℝ)⁻¹ ^ 53) ^ (2 + 1) - 1) * 2) := by rw [div_one, mul_one]; linarith
        _ ≤ _ := by norm_num)
    (by simp)
  exact ⟨h.1, h.2.1⟩

end Ellalgo
