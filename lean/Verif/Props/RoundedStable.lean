import Verif.Lemmas.RoundedStable
import Verif.Props.RoundedRun
import Verif.Props.RoundedLdlt
import Verif.Props.StableLoops

/-! # C95: `EllStable` in floating point -/

namespace Ellalgo

open Matrix Spec

variable {n : ℕ}

namespace Arith

/-! ### With exact arithmetic the rounded model is the exact model -/

theorem exact_rankStep (n : ℕ) (z : ℕ → ℝ) : exact.rankStep n z = EllStable.rankStep n z := by
  funext j st
  unfold rankStep EllStable.rankStep
  rfl

theorem exact_omegaSum (w z : ℕ → ℝ) : exact.omegaSum n w z = ∑ i : Fin n, w i * z i := by
  rw [Fin.sum_univ_eq_sum_range (fun i => w i * z i) n]
  unfold omegaSum
  exact forRange_inv (P := fun j s => s = ∑ i ∈ Finset.range j, w i * z i) (Nat.zero_le _) (by simp) (by
    rintro j s - hj h
    rw [Finset.sum_range_succ, ← h]; rfl)

theorem exact_stableCore (s : EllStable n) (cut : Cut n) (strat : Strategy) : exact.stableCore s cut strat = s.updateCore cut strat := by
  have hfwd : exact.fwd n s.mq (toArr1 cut.1) = EllStable.fwd n s.mq (toArr1 cut.1) := rfl
  have hdiag : ∀ a b, exact.invDiag n a b = EllStable.invDiag n a b := fun _ _ => rfl
  have hbwd : ∀ a b, exact.bwd n a b = EllStable.bwd n a b := fun _ _ => rfl
  have hrank : ∀ a b c d, exact.rankOne n a b c d = EllStable.rankOne n a b c d := fun a b c d => by
    unfold rankOne EllStable.rankOne; rw [exact_rankStep]
  have hfin : ∀ (s : EllStable n) δ, exact.stableFinish s δ = s.finish δ := fun s δ => by
    unfold stableFinish EllStable.finish
    simp only [exact_mul]
    split_ifs
    · congr 1; funext i j; exact mul_comm _ _
    · rfl
  unfold stableCore EllStable.updateCore
  simp only [hfwd, hdiag, hbwd, hrank, hfin, exact_omegaSum, exact_mul, exact_sub, exact_div]
  generalize s.kappa * ∑ i : Fin n, (EllStable.fwd n s.mq (toArr1 cut.1)).2 i * EllStable.invDiag n (EllStable.fwd n s.mq (toArr1 cut.1)).1 (EllStable.fwd n s.mq (toArr1 cut.1)).2 i = t
  rcases strat cut.2 t with f | ⟨st, _ | p⟩ <;> rfl

end Arith

open Arith in
/-- **C95.** In exact arithmetic the rounded model of `EllStable` is the exact one. -/
theorem C95_exact : (∀ (v : InitVal n) (x : Vec n), exact.stableInit v x = EllStable.init v x) ∧
    (∀ (s : EllStable n) (m : Method) (cut : Cut n), exact.stableUpdate s m cut = s.update m cut) := by
  refine ⟨fun v x => rfl, fun s m cut => ?_⟩
  cases m
  · simp only [Arith.stableUpdate, stableBiasCut, EllStable.update, EllStable.updateBiasCut, exact_stableCore, exact_single]
  · simp only [Arith.stableUpdate, stableCentralCut, EllStable.update, EllStable.updateCentralCut, exact_stableCore, exact_central]
  · simp only [Arith.stableUpdate, stableQ, EllStable.update, EllStable.updateQ, exact_stableCore, exact_singleQ]

theorem Arith.stableUpdate_eq (A : Arith) (s : EllStable n) (m : Method) (cut : Cut n) : A.stableUpdate s m cut = A.stableCore s cut (A.strategy s.helper m) := by
  cases m <;> rfl

/-- **C95.** One call in any arithmetic with relative error below 1, whatever the condition of the ellipsoid: if the strategy answers with `0 ≤ sigma`, `0 < 1 - sigma` (as computed) and `0 < delta`, or without parameters, the factors stay those of a
positive definite matrix, and the call returns what the strategy says, without a division by zero. -/
theorem C95_positive {A : Arith} {u : ℝ} (hr : ∀ x, |A.rnd x - x| ≤ u * |x|) (hu : u < 1) (s : EllStable n) (hS : ∀ i : Fin n, 0 < s.mq i i) (hκ : 0 < s.kappa) {g : Vec n} (hg : g ≠ 0) (b : CutChoice) (m : Method)
    (hp : ∀ st p, A.strategy s.helper m b (A.stableUpdate s m (g, b)).1.tsq = .ok (st, some p) → 0 ≤ p.sigma ∧ 0 < A.sub 1 p.sigma ∧ 0 < p.delta) :
    (ldlt n (A.stableUpdate s m (g, b)).1.mq).PosDef ∧ (∀ i : Fin n, 0 < (A.stableUpdate s m (g, b)).1.mq i i) ∧ 0 < (A.stableUpdate s m (g, b)).1.kappa ∧ 0 < (A.stableUpdate s m (g, b)).1.tsq ∧
    (A.stableUpdate s m (g, b)).2 = (A.strategy s.helper m b (A.stableUpdate s m (g, b)).1.tsq).map Prod.fst := by
  rw [Arith.stableUpdate_eq] at hp ⊢
  obtain ⟨h1, h2, h3, -, -, h4⟩ := Arith.stableCore_pos (Arith.signSafe_of hr hu) s hS hκ hg b _ hp
  exact ⟨ldlt_posDef h1, h1, h2, h3, h4⟩

/-- The strategies on a scalar offset with margin, for a given positive `tsq`. -/
theorem Arith.strategy_scalar {A : Arith} {u γ a t β : ℝ} {N : ℕ} (hA : A.Accurate u γ N) (hu : 0 ≤ u) (hn : 2 ≤ n) {c : EllCalc} (hc : A.calcInit (n : ℤ) = .ok c) (ht : 0 < t) (mt : Method) (hβ0 : 0 ≤ mt.offset β)
    (ha0 : 0 < a) (ha1 : a ≤ 1) (hβ : mt.offset β ≤ (1 - a) * Real.sqrt t) (hua : 2000 * u ≤ a) :
    ∃ p, ParamsRel u a p (EllCalcCore.biasParams n (mt.offset β) (Real.sqrt t)) ∧ A.strategy c mt (.scalar β) t = .ok (.success, some p) := by
  have hR := Arith.coreRel hA hu (by linarith) hn hc
  have hτ : 0 < Real.sqrt t := Real.sqrt_pos.mpr ht
  have rτ : Rel (51 / 10 * u) (A.rnd (Real.sqrt t)) (Real.sqrt t) := (hA.rel hu (by linarith) _).mono (by linarith)
  have hps : A.psqrt t = .ok (A.rnd (Real.sqrt t)) := by unfold Arith.psqrt; rw [if_neg ht.not_gt]
  cases mt with
  | bias =>
    change 0 ≤ β at hβ0
    change β ≤ _ at hβ
    obtain ⟨-, p, hp, hrel⟩ := Arith.biasFast_rel hA hu le_rfl hn hR hτ rτ hβ0 ha0 ha1 hβ hua
    refine ⟨p, hrel, ?_⟩
    have hns : ¬ t < A.mul β β := by
      have h2 := Arith.mul_self_le hA β
      have h3 : β ^ 2 ≤ (1 - a) * t := by
        have : β ^ 2 ≤ ((1 - a) * Real.sqrt t) ^ 2 := pow_le_pow_left₀ hβ0 hβ 2
        rw [mul_pow, Real.sq_sqrt ht.le] at this
        refine this.trans (mul_le_mul_of_nonneg_right ?_ ht.le)
        nlinarith
      have h4 : (1 + u) * β ^ 2 ≤ (1 + u) * ((1 - a) * t) := mul_le_mul_of_nonneg_left h3 (by linarith)
      have h5 : (1 + u) * (1 - a) ≤ 1 := by nlinarith
      have h6 := mul_le_mul_of_nonneg_right h5 ht.le
      rw [not_lt]; linarith
    unfold Arith.strategy Arith.calcSingleOrParallel Arith.calcBiasCut Arith.coreBiasCut
    simp only [ge_iff_le, if_pos hβ0, if_neg hns, hps, hR.hnF]
    simp only [except_ok_bind, hp]
  | central =>
    refine ⟨A.calcCentralCut c.helper (A.rnd (Real.sqrt t)), ?_, ?_⟩
    · have := Arith.central_rel hA hu le_rfl (by linarith) hn hR hτ rτ
      refine ⟨this.rho, this.sigma, this.delta.mono ?_⟩
      rw [div_one]
      have : u ≤ u / a := by rw [le_div_iff₀ ha0]; nlinarith
      linarith
    · unfold Arith.strategy Arith.calcSingleOrParallelCentralCut
      simp only [hps, except_ok_bind]
  | q =>
    change 0 ≤ β at hβ0
    change β ≤ _ at hβ
    obtain ⟨hη, p, hp, hrel⟩ := Arith.biasFast_rel hA hu le_rfl hn hR hτ rτ hβ0 ha0 ha1 hβ hua
    refine ⟨p, hrel, ?_⟩
    have hns : ¬ A.rnd (Real.sqrt t) < β := by
      have h1 := rτ.lower hτ.le (by linarith)
      have h5 : 1 - a ≤ 1 - (51 / 10 * u + (51 / 10 * u) ^ 2) := by nlinarith
      have h6 := mul_le_mul_of_nonneg_right h5 hτ.le
      rw [not_lt]; linarith
    unfold Arith.strategy Arith.calcSingleOrParallelQ Arith.calcBiasCutQ
    rw [← hR.nF] at hη hp
    simp only [hps, except_ok_bind, if_neg hns, if_neg hη.not_ge, hp]

/-- Parameters with margin are usable. -/
theorem ParamsRel.usable {A : Arith} {u γ a β τ : ℝ} {N : ℕ} (hA : A.Accurate u γ N) (hu : 0 ≤ u) (hn : 2 ≤ n) (hτ : 0 < τ) (hβ0 : 0 ≤ β) (ha0 : 0 < a) (ha1 : a ≤ 1) (hβ : β ≤ (1 - a) * τ) (hua : 2000 * u ≤ a)
    {p : Params} (h : ParamsRel u a p (EllCalcCore.biasParams n β τ)) : 0 ≤ p.sigma ∧ 0 < A.sub 1 p.sigma ∧ 0 < p.delta := by
  have hn2 : (2 : ℝ) ≤ n := by exact_mod_cast hn
  obtain ⟨b1, b2, -, -, b5⟩ := bias_bounds (N := n) hn2 hτ hβ0 ha0 ha1 hβ
  have hσ0 : 0 < (EllCalcCore.biasParams n β τ).sigma := by simp only [EllCalcCore.biasParams]; positivity
  have h1 := (abs_le.mp (h.sigma.abs_sub_le hσ0.le (by linarith))).2
  have h2 : (242 / 10 * u + (242 / 10 * u) ^ 2) * (EllCalcCore.biasParams n β τ).sigma ≤ 25 * u := by
    have h3 : 242 / 10 * u + (242 / 10 * u) ^ 2 ≤ 25 * u := by nlinarith
    have h4 : (EllCalcCore.biasParams n β τ).sigma ≤ 1 := by linarith
    calc _ ≤ 25 * u * (EllCalcCore.biasParams n β τ).sigma := mul_le_mul_of_nonneg_right h3 hσ0.le
      _ ≤ 25 * u * 1 := mul_le_mul_of_nonneg_left h4 (by linarith)
      _ = _ := by ring
  refine ⟨(h.sigma.pos hσ0).le, ?_, h.delta.pos b5⟩
  exact (Arith.signSafe_of hA.rnd (by linarith)).pos _ (by linarith)

/-- **C95.** A whole history of central and deep cuts on `EllStable` in floating point, with any gradients that are not zero and without any condition on the ellipsoids: if every offset is at most `(1 - a) √tsq` and `u ≤ a / 2000`, every call reports
`Success`, and the object always holds the factors of a positive definite matrix. -/
theorem C95_run {A : Arith} {u γ a : ℝ} {N : ℕ} (hA : A.Accurate u γ N) (hu : 0 ≤ u) (hn : 2 ≤ n) (ha0 : 0 < a) (ha1 : a ≤ 1) (hua : 2000 * u ≤ a)
    (s : EllStable n) (hc : A.calcInit (n : ℤ) = .ok s.helper) (hS : ∀ i : Fin n, 0 < s.mq i i) (hκ : 0 < s.kappa) (l : List (Method × Vec n × ℝ)) (hr : A.StableInRange a s l) :
    (∀ r ∈ A.stableStatuses s (singleCalls l), r = .ok .success) ∧ (ldlt n (A.stableRun s (singleCalls l)).mq).PosDef ∧ 0 < (A.stableRun s (singleCalls l)).kappa := by
  induction l generalizing s with
  | nil => exact ⟨fun r hr => by simp [singleCalls, Arith.stableStatuses] at hr, ldlt_posDef hS, hκ⟩
  | cons t l ih =>
    obtain ⟨mt, g, β⟩ := t
    obtain ⟨hg, hβ0, hβ, hr'⟩ := hr
    have hA' := Arith.signSafe_of hA.rnd (by linarith : u < 1)
    have htsq : 0 < (A.stableUpdate s mt (g, .scalar β)).1.tsq := by
      have h1 := (Arith.stableCore_pos hA' s hS hκ hg (.scalar β) (fun _ _ => .error .assertion) (fun st p h => by cases h)).2.2.1
      have h2 : ∀ strat : Strategy, (A.stableCore s (g, .scalar β) strat).1.tsq = (A.stableCore s (g, .scalar β) (fun _ _ => .error .assertion)).1.tsq := fun strat => by
        unfold Arith.stableCore
        simp only
        rcases strat (.scalar β) (A.mul s.kappa (A.omegaSum n (A.fwd n s.mq (toArr1 g)).2 (A.invDiag n (A.fwd n s.mq (toArr1 g)).1 (A.fwd n s.mq (toArr1 g)).2))) with f | ⟨st, _ | p⟩
        · rfl
        · rfl
        · simp only
          split_ifs
          · rfl
          · rfl
          · rfl
          · rfl
          · unfold Arith.stableFinish; simp only; split_ifs <;> rfl
      rw [Arith.stableUpdate_eq, h2]; exact h1
    obtain ⟨p, hp, hst⟩ := Arith.strategy_scalar hA hu hn hc htsq mt hβ0 ha0 ha1 hβ hua
    have hus := hp.usable hA hu hn (Real.sqrt_pos.mpr htsq) hβ0 ha0 ha1 hβ hua
    rw [Arith.stableUpdate_eq] at hst
    obtain ⟨h1, h2, h3, h4, h5, h6⟩ := Arith.stableCore_pos hA' s hS hκ hg (.scalar β) (A.strategy s.helper mt) (fun st p' h => by
      rw [hst] at h; cases h; exact hus)
    rw [hst] at h6
    rw [← Arith.stableUpdate_eq] at h1 h2 h4 h6
    obtain ⟨k1, k2, k3⟩ := ih _ (by rw [h4]; exact hc) h1 h2 hr'
    refine ⟨fun r hr => ?_, k2, k3⟩
    rcases List.mem_cons.mp hr with h | h
    · rw [h]; exact h6
    · exact k1 r h

/-- Central cuts are always in range. -/
theorem Arith.stableInRange_central (A : Arith) (s : EllStable n) (gs : List (Vec n)) (h : ∀ g ∈ gs, g ≠ 0) : A.StableInRange 1 s (gs.map fun g => (Method.central, g, (0 : ℝ))) := by
  induction gs generalizing s with
  | nil => trivial
  | cons g gs ih =>
    exact ⟨h g (by simp), le_rfl, by simp [Method.offset], ih _ fun g' hg' => h g' (List.mem_cons_of_mem _ hg')⟩

/-- Double precision, dimension 2, from any ball: any number of central cuts with any gradients. -/
example (r : ℝ) (hr : 0 < r) (x : Vec 2) (gs : List (Vec 2)) (hgs : ∀ g ∈ gs, g ≠ 0) : ∃ s : EllStable 2, (Arith.ieee 53).stableInit (.scalar r) x = .ok s ∧
    (ldlt 2 ((Arith.ieee 53).stableRun s (singleCalls (gs.map fun g => (Method.central, g, (0 : ℝ))))).mq).PosDef := by
  obtain ⟨c, hc, -⟩ := Arith.core_facts (n := 2) (Arith.ieee_accurate 53 2) (by positivity) (by norm_num) le_rfl
  have hi : (Arith.ieee 53).stableInit (.scalar r) x = .ok { mq := toArr2 (1 : Mat 2), xc := x, kappa := r, tsq := 0, helper := c, noDeferTrick := false } := by
    unfold Arith.stableInit
    rw [hc]
    rfl
  refine ⟨_, hi, (C95_run (a := 1) (Arith.ieee_accurate 53 2) (by positivity) le_rfl one_pos le_rfl (by norm_num) _ hc (fun i => ?_) hr _ (Arith.stableInRange_central _ _ _ hgs)).2.1⟩
  change 0 < toArr2 (1 : Mat 2) i i
  rw [toArr2_apply]; simp

/-! ### Without a margin -/

theorem roundBits_tie_up {p : ℕ} {x : ℝ} {e k : ℤ} (h1 : (2 : ℝ) ^ e ≤ x) (h2 : x < 2 ^ (e + 1)) (hk : ¬ Even k) (h : x * 2 ^ ((p : ℤ) - 1 - e) = k + 1 / 2) :
    roundBits p x = (k + 1) * 2 ^ (e + 1 - p) := by
  have hx : x ≠ 0 := (lt_of_lt_of_le (zpow_pos two_pos _) h1).ne'
  have hf : ⌊(k : ℝ) + 1 / 2⌋ = k := by rw [Int.floor_eq_iff]; constructor <;> linarith
  unfold roundBits
  rw [if_neg hx, binExp_eq h1 h2, h]
  have : roundHalfEven ((k : ℝ) + 1 / 2) = k + 1 := by
    unfold roundHalfEven
    rw [hf, if_neg (by norm_num), if_neg (by norm_num), if_neg hk]
  rw [this]; push_cast; rfl

/-- The largest double below 2. -/
noncomputable def almost2 : ℝ := 2 - 1 / 2 ^ 52

theorem rbN (k : ℤ) (hk : |(k : ℝ)| < 2 ^ 53) : roundBits 53 k = k := by simpa using rb k 0 hk

theorem ieee_rnd (x : ℝ) : (Arith.ieee 53).rnd x = roundBits 53 x := rfl

/-- The constants of `EllCalc(2)` in double precision. -/
noncomputable def calc2 : EllCalc :=
  { useParallelCut := true, nF := 2, helper := { nF := 2, halfN := 1, nPlus1 := 3, invN := 1 / 2, nSq := 4, cst0 := 6004799503160661 / 2 ^ 54, cst1 := 6004799503160661 / 2 ^ 52, cst2 := 6004799503160661 / 2 ^ 53, cst3 := 6004799503160661 / 2 ^ 53 } }

theorem ieee_calc2 : (Arith.ieee 53).calcInit 2 = .ok calc2 := by
  have r1 : roundBits 53 1 = 1 := by simpa using rbN 1 (by norm_num)
  have r3 : roundBits 53 3 = 3 := by simpa using rbN 3 (by norm_num)
  have r4 : roundBits 53 4 = 4 := by simpa using rbN 4 (by norm_num)
  have rh : roundBits 53 (1 / 2) = 1 / 2 := by simpa using rb 1 1 (by norm_num)
  have rt : roundBits 53 (1 / 3) = 6004799503160661 / 2 ^ 54 := by
    rw [roundBits_eq (e := -2) (k := 6004799503160661) (by norm_num) (by norm_num) (by norm_num [abs_lt])]; norm_num
  have rf : roundBits 53 (4 / 3) = 6004799503160661 / 2 ^ 52 := by
    rw [roundBits_eq (e := 0) (k := 6004799503160661) (by norm_num) (by norm_num) (by norm_num [abs_lt])]; norm_num
  have r2 : roundBits 53 (2 * (6004799503160661 / 2 ^ 54)) = 6004799503160661 / 2 ^ 53 := by
    have := rb 6004799503160661 53 (by norm_num)
    rw [show (2 : ℝ) * (6004799503160661 / 2 ^ 54) = ((6004799503160661 : ℤ) : ℝ) / 2 ^ 53 by norm_num, this]; norm_num
  have i2 : ((2 : ℤ) : ℝ) = 2 := by norm_num
  have hcore : (Arith.ieee 53).coreInit 2 = .ok calc2.helper := by
    unfold Arith.coreInit Arith.pdiv Arith.div Arith.mul Arith.add Arith.sub
    simp only [ieee_rnd, show (2 : ℝ) + 1 = 3 by norm_num, show (2 : ℝ) * 2 = 4 by norm_num, show (2 : ℝ) / 2 = 1 by norm_num, r1, r3, r4, show (4 : ℝ) - 1 = 3 by norm_num, rh, rt, rf, r2, two_ne_zero, if_false, three_ne_zero, except_ok_bind]
    rfl
  unfold Arith.calcInit
  rw [if_pos (by norm_num), i2, hcore]
  rfl

theorem almost2_strategy : ∃ ρ δ, 0 < δ ∧ (Arith.ieee 53).calcSingleOrParallel calc2 (.scalar almost2) 4 = .ok (.success, some { rho := ρ, sigma := 1, delta := δ }) := by
  have hss := Arith.signSafe_of (Arith.ieee_accurate 53 2).rnd (by norm_num)
  have b0 : 0 ≤ almost2 := by unfold almost2; norm_num
  have bsq : roundBits 53 (almost2 * almost2) = 4 - 1 / 2 ^ 50 := by
    unfold almost2
    rw [roundBits_eq (e := 1) (k := 2 ^ 53 - 2) (by norm_num) (by norm_num) (by norm_num [abs_lt])]; norm_num
  have hs : Real.sqrt 4 = 2 := by rw [show (4 : ℝ) = 2 ^ 2 by norm_num]; exact Real.sqrt_sq (by norm_num)
  have r2 : roundBits 53 2 = 2 := by simpa using rbN 2 (by norm_num)
  have r1 : roundBits 53 1 = 1 := by simpa using rbN 1 (by norm_num)
  have e1 : roundBits 53 (2 * almost2) = 4 - 1 / 2 ^ 51 := by
    have := rb (2 ^ 53 - 1) 51 (by norm_num [abs_lt])
    rw [show 2 * almost2 = (((2 ^ 53 - 1 : ℤ)) : ℝ) / 2 ^ 51 by unfold almost2; norm_num, this]; norm_num
  have e2 : roundBits 53 (2 + (4 - 1 / 2 ^ 51)) = 6 := by
    rw [roundBits_tie_up (e := 2) (k := 6 * 2 ^ 50 - 1) (by norm_num) (by norm_num) (by decide) (by norm_num)]; norm_num
  have e3 : roundBits 53 (6004799503160661 / 2 ^ 53 * 6) = 4 := by
    rw [roundBits_tie_up (e := 1) (k := 2 ^ 53 - 1) (by norm_num) (by norm_num) (by decide) (by norm_num)]; norm_num
  have e4 : roundBits 53 (2 + almost2) = 4 := by
    unfold almost2
    rw [roundBits_tie_up (e := 1) (k := 2 ^ 53 - 1) (by norm_num) (by norm_num) (by decide) (by norm_num)]; norm_num
  have ea : roundBits 53 (almost2 / 2) = 1 - 1 / 2 ^ 53 := by
    have := rb (2 ^ 53 - 1) 53 (by norm_num [abs_lt])
    rw [show almost2 / 2 = (((2 ^ 53 - 1 : ℤ)) : ℝ) / 2 ^ 53 by unfold almost2; norm_num, this]; norm_num
  refine ⟨roundBits 53 (6004799503160661 / 2 ^ 54 * 6), roundBits 53 (roundBits 53 (6004799503160661 / 2 ^ 52 * roundBits 53 (1 - (1 - 1 / 2 ^ 53))) * roundBits 53 (1 + (1 - 1 / 2 ^ 53))), ?_, ?_⟩
  · have p1 : 0 < roundBits 53 (1 - (1 - 1 / 2 ^ 53)) := hss.pos _ (by norm_num)
    have p2 : 0 < roundBits 53 (1 + (1 - 1 / 2 ^ 53)) := hss.pos _ (by norm_num)
    have p3 : 0 < roundBits 53 (6004799503160661 / 2 ^ 52 * roundBits 53 (1 - (1 - 1 / 2 ^ 53))) := hss.pos _ (mul_pos (by norm_num) p1)
    exact hss.pos _ (mul_pos p3 p2)
  · unfold Arith.calcSingleOrParallel Arith.calcBiasCut Arith.coreBiasCut Arith.calcBiasCutFast Arith.psqrt Arith.pdiv Arith.div Arith.mul Arith.add Arith.sub
    simp only [ieee_rnd, calc2, ge_iff_le, if_pos b0, bsq, hs, r2, e1]
    rw [if_neg (by norm_num), if_neg (by norm_num)]
    simp only [e2, e3, e4, ea, two_ne_zero, four_ne_zero, if_false, except_ok_bind, div_self, ne_eq, not_false_eq_true, r1]

/-- **C95.** The margin is needed, and `Ell` and `EllStable` differ without it. Double precision, the ball with `kappa = 2` in dimension 2, one deep cut along `(1, 1)` with the largest double below `√tsq = 2`: `sigma` is computed as 1. `Ell` reports `Success`
and keeps a matrix that is not positive definite; `EllStable` raises `ZeroDivisionError`. In exact arithmetic `Ell` reports `Success` with a positive definite matrix. -/
theorem C95_no_margin : ∃ (e : Ell 2) (s : EllStable 2) (e' : Ell 2),
    (Arith.ieee 53).ellInit (.scalar 2) 0 = .ok e ∧ (Arith.ieee 53).stableInit (.scalar 2) 0 = .ok s ∧ Ell.init (.scalar 2) 0 = .ok e' ∧
    ((Arith.ieee 53).update e .bias (fun _ => 1, .scalar almost2)).2 = .ok .success ∧ ¬ ((Arith.ieee 53).update e .bias (fun _ => 1, .scalar almost2)).1.mq.PosDef ∧
    0 < ((Arith.ieee 53).update e .bias (fun _ => 1, .scalar almost2)).1.kappa ∧
    ((Arith.ieee 53).stableUpdate s .bias (fun _ => 1, .scalar almost2)).2 = .error .zeroDivision ∧
    (e'.updateBiasCut (fun _ => 1, .scalar almost2)).2 = .ok .success ∧ (e'.updateBiasCut (fun _ => 1, .scalar almost2)).1.mq.PosDef := by
  have hc : (Arith.ieee 53).calcInit ((2 : ℕ) : ℤ) = .ok calc2 := ieee_calc2
  obtain ⟨ρ, δ, hδ, hst⟩ := almost2_strategy
  have hss := Arith.signSafe_of (Arith.ieee_accurate 53 2).rnd (by norm_num)
  have r1 : roundBits 53 1 = 1 := by simpa using rbN 1 (by norm_num)
  have r2 : roundBits 53 2 = 2 := by simpa using rbN 2 (by norm_num)
  have r4 : roundBits 53 4 = 4 := by simpa using rbN 4 (by norm_num)
  have rh : roundBits 53 (1 / 2) = 1 / 2 := by simpa using rb 1 1 (by norm_num)
  have rmh : roundBits 53 (0 - 1 / 2) = - (1 / 2) := by have := rb (-1) 1 (by norm_num); norm_num at this ⊢; exact this
  have rph : roundBits 53 (1 - 1 / 2) = 1 / 2 := by rw [show (1 : ℝ) - 1 / 2 = 1 / 2 by norm_num]; exact rh
  let e : Ell 2 := { mq := 1, xc := 0, kappa := 2, tsq := 0, helper := calc2, noDeferTrick := false }
  let s : EllStable 2 := { mq := toArr2 (1 : Mat 2), xc := 0, kappa := 2, tsq := 0, helper := calc2, noDeferTrick := false }
  have he : (Arith.ieee 53).ellInit (.scalar 2) 0 = .ok e := by unfold Arith.ellInit; rw [hc]; rfl
  have hs : (Arith.ieee 53).stableInit (.scalar 2) 0 = .ok s := by unfold Arith.stableInit; rw [hc]; rfl
  have hmv : (Arith.ieee 53).mv e.mq (fun _ => 1) = fun _ => 1 := by
    funext i
    change seqDot (roundBits 53) ((1 : Mat 2) i) (fun _ => 1) = 1
    unfold seqDot
    have h10 : (1 : Mat 2) 1 0 = 0 := rfl
    fin_cases i
    · change (Fin.foldl 2 (fun s i => roundBits 53 (s + roundBits 53 ((1 : Mat 2) 0 i * 1))) 0) = 1
      simp [Fin.foldl_succ, r1]
    · change (Fin.foldl 2 (fun s i => roundBits 53 (s + roundBits 53 ((1 : Mat 2) 1 i * 1))) 0) = 1
      have h11' : (1 : Mat 2) 1 (Fin.succ 0) = 1 := rfl
      simp [Fin.foldl_succ, r1, h10, h11']
  have hω : (Arith.ieee 53).dot (fun _ : Fin 2 => (1 : ℝ)) (fun _ => 1) = 2 := by
    change seqDot (roundBits 53) (fun _ : Fin 2 => (1 : ℝ)) (fun _ => 1) = 2
    unfold seqDot
    simp [Fin.foldl_succ, r1, show (1 : ℝ) + 1 = 2 by norm_num, r2]
  have hu : (Arith.ieee 53).update e .bias (fun _ => 1, .scalar almost2) = ({ e with tsq := 4, xc := fun i => (Arith.ieee 53).sub 0 ((Arith.ieee 53).mul ((Arith.ieee 53).div ρ 2) 1), mq := fun i j => (Arith.ieee 53).sub ((1 : Mat 2) i j) (1 / 2), kappa := (Arith.ieee 53).mul 2 δ }, .ok .success) := by
    change (Arith.ieee 53).updateCore e _ _ = _
    unfold Arith.updateCore
    have hne : ¬ ∀ i : Fin 2, (1 : ℝ) = 0 := fun h => one_ne_zero (h 0)
    have htsq : (Arith.ieee 53).mul 2 2 = 4 := by change roundBits 53 (2 * 2) = 4; rw [show (2 : ℝ) * 2 = 4 by norm_num, r4]
    have h11 : (Arith.ieee 53).mul 1 1 = 1 := by change roundBits 53 (1 * 1) = 1; rw [mul_one, r1]
    have hd : (Arith.ieee 53).div 1 2 = 1 / 2 := rh
    have hm : (Arith.ieee 53).mul (1 / 2) 1 = 1 / 2 := by change roundBits 53 (1 / 2 * 1) = 1 / 2; rw [mul_one, rh]
    simp only [hmv, hω, if_neg hne, two_ne_zero, if_false]
    simp only [e, htsq, hst, hd, h11, hm, Bool.false_eq_true, if_false]
    rfl
  have hsu : ((Arith.ieee 53).stableUpdate s .bias (fun _ => 1, .scalar almost2)).2 = .error .zeroDivision := by
    change ((Arith.ieee 53).stableCore s _ _).2 = _
    have hom : (Arith.ieee 53).omegaSum 2 ((Arith.ieee 53).fwd 2 s.mq (toArr1 (n := 2) fun _ => 1)).2 ((Arith.ieee 53).invDiag 2 ((Arith.ieee 53).fwd 2 s.mq (toArr1 (n := 2) fun _ => 1)).1 ((Arith.ieee 53).fwd 2 s.mq (toArr1 (n := 2) fun _ => 1)).2) = 2 := by
      simp only [Arith.omegaSum, Arith.fwd, Arith.invDiag, Arith.fwdStep, forRange, forUp, Arith.mul, Arith.sub, Arith.add, ieee_rnd, s]
      simp [toArr1, toArr2, set1, set2, r1]
      rw [show (1 : ℝ) + 1 = 2 by norm_num, r2]
    have htsq : (Arith.ieee 53).mul 2 2 = 4 := by change roundBits 53 (2 * 2) = 4; rw [show (2 : ℝ) * 2 = 4 by norm_num, r4]
    have h0 : (Arith.ieee 53).sub 1 1 = 0 := by change roundBits 53 (1 - 1) = 0; rw [sub_self, roundBits_zero]
    have hst' : (Arith.ieee 53).calcSingleOrParallel s.helper (.scalar almost2) ((Arith.ieee 53).mul s.kappa 2) = .ok (.success, some { rho := ρ, sigma := 1, delta := δ }) := by
      change (Arith.ieee 53).calcSingleOrParallel calc2 (.scalar almost2) ((Arith.ieee 53).mul 2 2) = _
      rw [htsq]; exact hst
    unfold Arith.stableCore
    simp only [hom, hst', two_ne_zero, if_false, h0, if_true]
  have hi : Ell.init (n := 2) (.scalar 2) 0 = .ok { unitDisc with kappa := 2 } := by
    unfold Ell.init
    rw [EllCalc.init_two_le le_rfl]
    rfl
  refine ⟨e, s, _, he, hs, hi, by rw [hu], ?_, ?_, hsu, ?_⟩
  · rw [hu]
    intro h
    have := h.det_pos
    rw [Matrix.det_fin_two] at this
    have q : ∀ x, (Arith.ieee 53).sub x (1 / 2) = roundBits 53 (x - 1 / 2) := fun _ => rfl
    simp only [Matrix.one_apply_eq, Matrix.one_apply_ne (zero_ne_one (α := Fin 2)), Matrix.one_apply_ne (one_ne_zero (α := Fin 2)), q, rph, rmh] at this
    norm_num at this
  · rw [hu]; exact hss.pos _ (mul_pos two_pos hδ)
  · have hex : Arith.exact.Accurate 0 0 2 := ⟨fun x => by simp [Arith.exact], fun x y _ => by simp [Arith.exact], fun M x _ i => by simp [Arith.exact]⟩
    have hcal : Arith.exact.calcInit ((2 : ℕ) : ℤ) = .ok (EllCalc.std 2 true) := EllCalc.init_two_le le_rfl
    have hs4 : Real.sqrt (2 * 2) = 2 := Real.sqrt_mul_self (by norm_num)
    have h := C91_inflated (m := 1) (L := 1) (a := 1 / 2 ^ 53) (β := almost2) hex le_rfl le_rfl le_rfl { unitDisc with kappa := 2 } hcal rfl two_pos Matrix.isSymm_one one_pos (fun v => by simp [unitDisc]) (fun v => by simp [unitDisc])
      (g := fun _ => 1) (fun h => one_ne_zero (congrFun h 0)) .bias (by change 0 ≤ almost2; unfold almost2; norm_num) (by norm_num) (by norm_num)
      (by
        have : (fun _ : Fin 2 => (1 : ℝ)) ⬝ᵥ (unitDisc.mq *ᵥ fun _ => 1) = 2 := by simp [unitDisc, dotProduct]
        rw [this, hs4]; change almost2 ≤ _; unfold almost2; norm_num)
      (by norm_num) (by norm_num)
    have hup : Arith.exact.update ({ unitDisc with kappa := 2 } : Ell 2) .bias (fun _ => 1, .scalar almost2) = ({ unitDisc with kappa := 2 } : Ell 2).updateBiasCut (fun _ => 1, .scalar almost2) :=
      (C90_exact.2.1 _ .bias _)
    rw [hup] at h
    exact ⟨h.1, h.2.1⟩

end Ellalgo
