import Verif.Props.EllState

/-! # C16 - C19: the cut formulas and their dispatch -/

namespace Ellalgo

open Matrix Spec EllCalcCore

/-! ### C16: formula variants -/

theorem core_eq {n : ℝ} {c : EllCalcCore} (hn : 2 ≤ n) (h : EllCalcCore.init n = .ok c) : c = std n := by
  rw [init_ok hn] at h; cases h; rfl

/-- **C16 (a).** The five parallel-cut formulas agree (arguments `b0b1`, `eta` as their callers pass them;
`_fast2` ignores `eta`). -/
theorem C16_parallel_variants_agree (n : ℝ) (hn : 2 ≤ n) (c : EllCalcCore)
    (hc : EllCalcCore.init n = .ok c) (β0 β1 tsq eta : ℝ) (ht : 0 < tsq)
    (hη : 0 ≤ tsq + n * (β0 * β1)) (hne : β0 ≠ β1) (hs : β0 + β1 ≠ 0) :
    ∃ p, c.calcParallelBiasCut β0 β1 tsq = .ok p ∧
      c.calcParallelBiasCutFast β0 β1 tsq (β0 * β1) (tsq + n * (β0 * β1)) = .ok p ∧
      c.calcParallelBiasCutFastOld β0 β1 tsq (β0 * β1) (tsq + n * (β0 * β1)) = .ok p ∧
      c.calcParallelBiasCutFast2 β0 β1 tsq (β0 * β1) eta = .ok p ∧
      c.calcParallelBiasCutOld β0 β1 tsq = .ok p := by
  have := core_eq hn hc
  subst this
  have hK := (parDen_pos hn ht hη).ne'
  exact ⟨parParams n β0 β1 tsq, calcParallelBiasCut_std hn ht.ne' hK,
    calcParallelBiasCutFast_std hn ht.ne' hK, calcParallelBiasCutFastOld_std hn ht hη hne,
    calcParallelBiasCutFast2_std hn ht.ne' hs hK, calcParallelBiasCutOld_std hn ht.ne' hs hK⟩

example : ∃ c, EllCalcCore.init 3 = .ok c ∧ (0 : ℝ) ≤ 1 + 3 * (-1 / 4 * (1 / 2)) :=
  ⟨_, init_ok (by norm_num), by norm_num⟩

/-- **C16 (b).** The parallel central cut equals its old version and the parallel cut with `β0 = 0`. -/
theorem C16_central_variants_agree (n : ℝ) (hn : 2 ≤ n) (c : EllCalcCore)
    (hc : EllCalcCore.init n = .ok c) (β1 tsq : ℝ) (ht : 0 < tsq) (hb : β1 ≠ 0) (hb1 : β1 * β1 ≤ tsq) :
    ∃ p, c.calcParallelCentralCut β1 tsq = .ok p ∧ c.calcParallelCentralCutOld β1 tsq = .ok p ∧
      c.calcParallelBiasCut 0 β1 tsq = .ok p := by
  have := core_eq hn hc
  subst this
  exact ⟨_, calcParallelCentralCut_std hn ht hb1, calcParallelCentralCutOld_std hn ht hb hb1,
    calcParallelBiasCut_std hn ht.ne' (parDen_pos hn ht (by simpa using ht.le)).ne'⟩

/-- **C16 (c).** A bias cut with `β = 0` is the central cut. -/
theorem C16_bias_zero_is_central (n : ℝ) (hn : 2 ≤ n) (c : EllCalcCore)
    (hc : EllCalcCore.init n = .ok c) (τ : ℝ) (hτ : 0 < τ) :
    c.calcBiasCut 0 τ = .ok (c.calcCentralCut τ) := by
  have := core_eq hn hc
  subst this
  rw [calcBiasCut_std hτ.ne' (by linarith), calcCentralCut_std hτ.ne']

/-- **C16 (d).** The parallel cut whose second hyperplane touches the ellipsoid is the single cut. -/
theorem C16_parallel_tau_is_bias (n : ℝ) (hn : 2 ≤ n) (c : EllCalcCore)
    (hc : EllCalcCore.init n = .ok c) (β τ : ℝ) (hτ : 0 < τ) (h1 : -τ < β) (h2 : β ≤ τ) :
    c.calcParallelBiasCut β τ (τ * τ) = c.calcBiasCut β τ := by
  have := core_eq hn hc
  subst this
  have hb : 0 < τ + β := by linarith
  have hxi : parXi n β τ (τ * τ) = n / 2 * (τ * τ - β * β) := by
    unfold parXi
    rw [sub_self, mul_zero, zero_add, Real.sqrt_sq]
    have : 0 ≤ (τ - β) * (τ + β) := mul_nonneg (by linarith) hb.le
    have : 0 ≤ τ * τ - β * β := by nlinarith
    positivity
  have hK : parDen n β τ (τ * τ) = τ * (τ + β) * (n + 1) := by
    unfold parDen; rw [hxi]; ring
  have hn1 : n + 1 ≠ 0 := by linarith
  have hn0 : n ≠ 0 := by linarith
  have hn2 : n ^ 2 - 1 ≠ 0 := by nlinarith
  rw [calcParallelBiasCut_std hn (by positivity) (by rw [hK]; positivity),
    calcBiasCut_std hτ.ne' hb.ne']
  simp only [parParams, biasParams, hK, hxi, Except.ok.injEq, Params.mk.injEq]
  have hb' := hb.ne'
  refine ⟨?_, ?_, ?_⟩
  · rw [add_comm β τ]; field_simp
  · field_simp
  · rw [show n * n - 1 = n ^ 2 - 1 by ring]; field_simp; ring

/-- **C16, exception.** With equal offsets `_fast_old` falls back to the central cut, whereas
`calc_parallel_bias_cut` collapses the ellipsoid (`σ = 1`): the variants do *not* agree there. -/
theorem C16_fast_old_differs_at_equal_offsets (n : ℝ) (hn : 2 ≤ n) (c : EllCalcCore)
    (hc : EllCalcCore.init n = .ok c) (β tsq : ℝ) (ht : 0 < tsq) (hb : β * β ≤ tsq) :
    ∃ p q, c.calcParallelBiasCut β β tsq = .ok p ∧
      c.calcParallelBiasCutFastOld β β tsq (β * β) (tsq + n * (β * β)) = .ok q ∧
      p.sigma = 1 ∧ q = c.calcCentralCut (Real.sqrt tsq) ∧ q.sigma < 1 := by
  have := core_eq hn hc
  subst this
  have hη : 0 < tsq + n * (β * β) := by
    have : 0 ≤ n * (β * β) := mul_nonneg (by linarith) (mul_self_nonneg _)
    linarith
  have hxi : parXi n β β tsq = tsq - β * β := by
    unfold parXi
    rw [sub_self, mul_zero, zero_pow two_ne_zero, add_zero, Real.sqrt_mul_self (by linarith)]
  refine ⟨_, _, calcParallelBiasCut_std hn ht.ne' (parDen_pos hn ht hη.le).ne',
    calcParallelBiasCutFastOld_eq hn ht hb, ?_, (calcCentralCut_std (Real.sqrt_pos.mpr ht).ne').symm, ?_⟩
  · simp only [parParams, parDen, hxi]
    rw [div_eq_one_iff_eq]
    · ring
    · have : tsq + β * β + n / 2 * (β + β) ^ 2 + (tsq - β * β) = 2 * (tsq + n * (β * β)) := by ring
      rw [this]; positivity
  · have hs := Real.sqrt_pos.mpr ht
    simp only [biasParams]
    rw [div_lt_one (by positivity)]
    nlinarith

/-! ### C17: dispatch -/

/-- The dispatch method used by each update method. -/
noncomputable def Method.strategy (c : EllCalc) : Method → Strategy
  | .bias => c.calcSingleOrParallel
  | .central => c.calcSingleOrParallelCentralCut
  | .q => c.calcSingleOrParallelQ

/-- **C17 (a).** A one-element sequence is the scalar cut; so is any sequence when
`use_parallel_cut = False`. The central variant does not look at the offset at all. -/
theorem C17_single (c : EllCalc) (tsq β : ℝ) (m : Method) (l : List (Option ℝ)) :
    m.strategy c (.seq [some β]) tsq = m.strategy c (.scalar β) tsq ∧
    (c.useParallelCut = false → m.strategy c (.seq (some β :: l)) tsq = m.strategy c (.scalar β) tsq) ∧
    (∀ β', Method.central.strategy c (.scalar β) tsq = Method.central.strategy c (.scalar β') tsq) := by
  refine ⟨?_, fun h => ?_, fun _ => rfl⟩
  · cases m <;> simp [Method.strategy, EllCalc.calcSingleOrParallel, EllCalc.firstOffset,
      EllCalc.calcSingleOrParallelCentralCut, EllCalc.calcSingleOrParallelQ]
  · cases m <;> simp [Method.strategy, EllCalc.calcSingleOrParallel, EllCalc.firstOffset,
      EllCalc.calcSingleOrParallelCentralCut, EllCalc.calcSingleOrParallelQ, h]

/-- **C17 (b).** With `use_parallel_cut = True` two numeric offsets go to the parallel methods; entries
after the second are ignored. -/
theorem C17_parallel (c : EllCalc) (hu : c.useParallelCut = true) (tsq β0 β1 : ℝ)
    (l : List (Option ℝ)) :
    c.calcSingleOrParallel (.seq (some β0 :: some β1 :: l)) tsq = c.calcParallel β0 β1 tsq ∧
    c.calcSingleOrParallelQ (.seq (some β0 :: some β1 :: l)) tsq = c.calcParallelQ β0 β1 tsq ∧
    c.calcSingleOrParallelCentralCut (.seq (some β0 :: some β1 :: l)) tsq =
      c.calcSingleOrParallelCentralCut (.pair 0 β1) tsq := by
  simp [EllCalc.calcSingleOrParallel, EllCalc.firstOffset, EllCalc.calcSingleOrParallelCentralCut,
    EllCalc.calcSingleOrParallelQ, hu]

/-- **C17 (c).** A `None` second offset raises `AssertionError` in all three variants when parallel cuts
are on. -/
theorem C17_none_second (c : EllCalc) (hu : c.useParallelCut = true) (m : Method) (tsq : ℝ)
    (b0 : Option ℝ) (l : List (Option ℝ)) :
    m.strategy c (.seq (b0 :: none :: l)) tsq = .error .assertion := by
  cases m <;> simp [Method.strategy, EllCalc.calcSingleOrParallel, EllCalc.calcSingleOrParallelQ,
    EllCalc.calcSingleOrParallelCentralCut, hu]

/-- **C17 (d).** An empty sequence raises `IndexError`, except in the central variant, which treats it as
any other central cut. -/
theorem C17_empty (c : EllCalc) (tsq β : ℝ) :
    c.calcSingleOrParallel (.seq []) tsq = .error .indexError ∧
    c.calcSingleOrParallelQ (.seq []) tsq = .error .indexError ∧
    c.calcSingleOrParallelCentralCut (.seq []) tsq =
      c.calcSingleOrParallelCentralCut (.scalar β) tsq := by
  simp [EllCalc.calcSingleOrParallel, EllCalc.firstOffset, EllCalc.calcSingleOrParallelCentralCut,
    EllCalc.calcSingleOrParallelQ]

example : (EllCalc.std 2 true).useParallelCut = true ∧ (EllCalc.std 2 false).useParallelCut = false :=
  ⟨rfl, rfl⟩

/-! ### C18: which calls raise -/

theorem parDen_pos' {n β0 β1 tsq : ℝ} (hn : 2 ≤ n) (ht : 0 < tsq) (h01 : β0 ≤ β1)
    (h : ¬ (β1 > 0 ∧ tsq ≤ β1 * β1)) : 0 < parDen n β0 β1 tsq := by
  by_cases hη : 0 ≤ tsq + n * (β0 * β1)
  · exact parDen_pos hn ht hη
  have hη' := not_le.mp hη
  have hx0 := parXi_nonneg n β0 β1 tsq
  have hx := parXi_disc hn β0 β1 tsq
  have hb : β0 * β1 < 0 := by
    by_contra hc
    have : 0 ≤ n * (β0 * β1) := mul_nonneg (by linarith) (not_lt.mp hc)
    linarith
  have hb1 : 0 < β1 := by
    by_contra hc
    have : 0 ≤ β0 * β1 := mul_nonneg_of_nonpos_of_nonpos (by linarith) (not_lt.mp hc)
    linarith
  have hb1' : β1 * β1 < tsq := by
    by_contra hc; exact h ⟨hb1, not_lt.mp hc⟩
  by_cases hs : β0 + β1 = 0
  · have : β0 = -β1 := by linarith
    subst this
    unfold parDen
    nlinarith
  · by_contra hc
    have hc' := not_lt.mp hc
    have hpos : 0 < (β0 + β1) ^ 2 := by positivity
    have h1 : (n + 1) * (β0 + β1) ^ 2 * (tsq + n * (β0 * β1)) < 0 :=
      mul_neg_of_pos_of_neg (mul_pos (by linarith) hpos) hη'
    unfold parDen at hc'
    nlinarith

/-- The inputs on which a bias cut raises (`u` is `use_parallel_cut`). -/
def RaisesBias (u : Bool) (tsq : ℝ) : CutChoice → Prop
  | .scalar b => b < 0
  | .seq [some b] => b < 0
  | .seq (some b0 :: some b1 :: _) =>
      if u then b0 < 0 ∧ b0 ≤ b1 ∧ 0 < b1 ∧ tsq ≤ b1 * b1 else b0 < 0
  | .seq (some b0 :: none :: _) => if u then True else b0 < 0
  | .seq _ => True

/-- The inputs on which a `q` cut raises. -/
def RaisesQ (u : Bool) : CutChoice → Prop
  | .scalar _ => False
  | .seq [some _] => False
  | .seq (some _ :: some _ :: _) => False
  | .seq (some _ :: none :: _) => u = true
  | .seq _ => True

/-- The inputs on which a central cut raises. -/
def RaisesCentral (u : Bool) : CutChoice → Prop
  | .seq (_ :: none :: _) => u = true
  | _ => False

theorem calcBiasCut_raises {n : ℕ} {u : Bool} {β tsq : ℝ} (ht : 0 < tsq) :
    (∃ f, (EllCalc.std n u).calcBiasCut β tsq = .error f) ↔ β < 0 := by
  rcases lt_or_ge β 0 with h | h
  · simp [EllCalc.calcBiasCut_neg h, h]
  · rcases lt_or_ge tsq (β * β) with h1 | h1
    · simp [EllCalc.calcBiasCut_noSoln h h1, not_lt.mpr h]
    · simp [EllCalc.calcBiasCut_success h ht h1, not_lt.mpr h]

theorem calcParallel_raises {n : ℕ} (hn : 2 ≤ n) {u : Bool} {β0 β1 tsq : ℝ} (ht : 0 < tsq) :
    (∃ f, (EllCalc.std n u).calcParallel β0 β1 tsq = .error f) ↔
      β0 < 0 ∧ β0 ≤ β1 ∧ 0 < β1 ∧ tsq ≤ β1 * β1 := by
  have hn2 : (2 : ℝ) ≤ n := by exact_mod_cast hn
  unfold EllCalc.calcParallel
  by_cases h0 : β1 < β0
  · rw [if_pos h0]; simp [not_le.mpr h0]
  rw [if_neg h0]
  simp only
  by_cases h1 : β1 > 0 ∧ tsq ≤ β1 * β1
  · rw [if_pos h1, calcBiasCut_raises ht]
    exact ⟨fun h => ⟨h, not_lt.mp h0, h1⟩, fun h => h.1⟩
  · rw [if_neg h1]
    simp only [EllCalc.std]
    rw [calcParallelBiasCut_std hn2 ht.ne' (parDen_pos' hn2 ht (not_lt.mp h0) h1).ne']
    constructor
    · rintro ⟨f, hf⟩; cases hf
    · rintro ⟨-, -, h⟩; exact absurd h h1

/-- **C18, exact form.** For an object built for dimension `n ≥ 2` and `tsq > 0`, the bias strategy raises
on exactly the inputs listed in `RaisesBias`: in particular never when the first offset is `≥ 0` and no
offset is missing, and the square root and all divisions of the parallel formula are always defined. -/
theorem C18_bias_raises_iff (n : ℕ) (c : EllCalc) (hc : EllCalc.init n = .ok c) (u : Bool)
    (β : CutChoice) (tsq : ℝ) (ht : 0 < tsq) :
    (∃ f, ({ c with useParallelCut := u } : EllCalc).calcSingleOrParallel β tsq = .error f) ↔
      RaisesBias u tsq β := by
  obtain ⟨hn', rfl⟩ := EllCalc.init_eq hc
  have hn : 2 ≤ n := by exact_mod_cast hn'
  show (∃ f, (EllCalc.std n u).calcSingleOrParallel β tsq = .error f) ↔ _
  match β with
  | .scalar b => exact calcBiasCut_raises ht
  | .seq [] => simp [EllCalc.calcSingleOrParallel, EllCalc.firstOffset, RaisesBias]
  | .seq [none] => simp [EllCalc.calcSingleOrParallel, EllCalc.firstOffset, RaisesBias]
  | .seq [some b] =>
    simp only [EllCalc.calcSingleOrParallel, EllCalc.firstOffset, RaisesBias]
    simpa using calcBiasCut_raises ht
  | .seq (none :: b1 :: l) =>
    cases u <;> rcases b1 with _ | b1 <;>
      simp [EllCalc.calcSingleOrParallel, EllCalc.firstOffset, RaisesBias, EllCalc.std]
  | .seq (some b0 :: none :: l) =>
    cases u
    · simp only [RaisesBias, EllCalc.calcSingleOrParallel]
      simpa [EllCalc.firstOffset, EllCalc.std] using calcBiasCut_raises (n := n) (u := false) ht
    · simp [EllCalc.calcSingleOrParallel, RaisesBias, EllCalc.std]
  | .seq (some b0 :: some b1 :: l) =>
    cases u
    · simp only [RaisesBias, EllCalc.calcSingleOrParallel]
      simpa [EllCalc.firstOffset, EllCalc.std] using calcBiasCut_raises (n := n) (u := false) ht
    · simp only [RaisesBias, EllCalc.calcSingleOrParallel]
      simpa [EllCalc.firstOffset, EllCalc.std] using calcParallel_raises hn (u := true) ht

theorem calcBiasCutQ_ok {n : ℕ} (hn : 2 ≤ n) {u : Bool} {β tsq : ℝ} (ht : 0 < tsq) :
    ∃ r, (EllCalc.std n u).calcBiasCutQ β tsq = .ok r := by
  by_cases h0 : Real.sqrt tsq < β
  · refine ⟨(.noSoln, none), ?_⟩
    unfold EllCalc.calcBiasCutQ; rw [psqrt_ok ht.le]; simp only [except_ok_bind]
    rw [if_pos h0]
  by_cases h1 : Real.sqrt tsq + n * β ≤ 0
  · refine ⟨(.noEffect, none), ?_⟩
    unfold EllCalc.calcBiasCutQ; rw [psqrt_ok ht.le]; simp only [except_ok_bind]
    rw [if_neg h0]
    rw [if_pos (show Real.sqrt tsq + (EllCalc.std n u).nF * β ≤ 0 from h1)]
  exact ⟨_, EllCalc.calcBiasCutQ_eq ht (not_le.mp h1) hn (not_lt.mp h0)⟩

theorem calcParallelQ_ok {n : ℕ} (hn : 2 ≤ n) {u : Bool} {β0 β1 tsq : ℝ} (ht : 0 < tsq) :
    ∃ r, (EllCalc.std n u).calcParallelQ β0 β1 tsq = .ok r := by
  by_cases h0 : β1 < β0
  · exact ⟨(.noSoln, none), by unfold EllCalc.calcParallelQ; rw [if_pos h0]⟩
  by_cases h1 : β1 > 0 ∧ tsq ≤ β1 * β1
  · unfold EllCalc.calcParallelQ; rw [if_neg h0]; simp only; rw [if_pos h1]
    exact calcBiasCutQ_ok hn ht
  by_cases h2 : tsq + n * (β0 * β1) ≤ 0
  · refine ⟨(.noEffect, none), ?_⟩
    unfold EllCalc.calcParallelQ; rw [if_neg h0]; simp only; rw [if_neg h1]
    rw [if_pos (show tsq + (EllCalc.std n u).nF * (β0 * β1) ≤ 0 from h2)]
  · exact ⟨_, EllCalc.calcParallelQ_eq hn (not_lt.mp h0) h1 ht (not_le.mp h2)⟩

/-- **C18, exact form, `q`.** Only malformed offset sequences raise. -/
theorem C18_q_raises_iff (n : ℕ) (c : EllCalc) (hc : EllCalc.init n = .ok c) (u : Bool)
    (β : CutChoice) (tsq : ℝ) (ht : 0 < tsq) :
    (∃ f, ({ c with useParallelCut := u } : EllCalc).calcSingleOrParallelQ β tsq = .error f) ↔
      RaisesQ u β := by
  obtain ⟨hn', rfl⟩ := EllCalc.init_eq hc
  have hn : 2 ≤ n := by exact_mod_cast hn'
  show (∃ f, (EllCalc.std n u).calcSingleOrParallelQ β tsq = .error f) ↔ _
  have no_error : ∀ {x : StrategyResult}, (∃ r, x = .ok r) → ((∃ f, x = .error f) ↔ False) := by
    rintro x ⟨r, rfl⟩; simp
  match β with
  | .scalar b => exact no_error (calcBiasCutQ_ok hn ht)
  | .seq [] => simp [EllCalc.calcSingleOrParallelQ, EllCalc.firstOffset, RaisesQ]
  | .seq [none] => simp [EllCalc.calcSingleOrParallelQ, EllCalc.firstOffset, RaisesQ]
  | .seq [some b] =>
    exact no_error (calcBiasCutQ_ok hn ht)
  | .seq (none :: b1 :: l) =>
    cases u <;> rcases b1 with _ | b1 <;>
      simp [EllCalc.calcSingleOrParallelQ, EllCalc.firstOffset, RaisesQ, EllCalc.std]
  | .seq (some b0 :: none :: l) =>
    cases u
    · have := no_error (calcBiasCutQ_ok hn (u := false) (β := b0) ht)
      simpa [RaisesQ, EllCalc.calcSingleOrParallelQ, EllCalc.firstOffset, EllCalc.std] using this
    · simp [EllCalc.calcSingleOrParallelQ, RaisesQ, EllCalc.std]
  | .seq (some b0 :: some b1 :: l) =>
    cases u
    · have := no_error (calcBiasCutQ_ok hn (u := false) (β := b0) ht)
      simpa [RaisesQ, EllCalc.calcSingleOrParallelQ, EllCalc.firstOffset, EllCalc.std] using this
    · have := no_error (calcParallelQ_ok hn (u := true) (β0 := b0) (β1 := b1) ht)
      simpa [RaisesQ, EllCalc.calcSingleOrParallelQ, EllCalc.firstOffset, EllCalc.std] using this

/-- **C18, exact form, central.** Only a missing second offset raises. -/
theorem C18_central_raises_iff (n : ℕ) (c : EllCalc) (hc : EllCalc.init n = .ok c) (u : Bool)
    (β : CutChoice) (tsq : ℝ) (ht : 0 < tsq) :
    (∃ f, ({ c with useParallelCut := u } : EllCalc).calcSingleOrParallelCentralCut β tsq = .error f) ↔
      RaisesCentral u β := by
  obtain ⟨hn', rfl⟩ := EllCalc.init_eq hc
  have hn : 2 ≤ n := by exact_mod_cast hn'
  have hn2 : (2 : ℝ) ≤ n := by exact_mod_cast hn
  show (∃ f, (EllCalc.std n u).calcSingleOrParallelCentralCut β tsq = .error f) ↔ _
  have hp : psqrt tsq = .ok (Real.sqrt tsq) := psqrt_ok ht.le
  match β with
  | .scalar b => simp [EllCalc.calcSingleOrParallelCentralCut, hp, RaisesCentral]
  | .seq [] => simp [EllCalc.calcSingleOrParallelCentralCut, hp, RaisesCentral]
  | .seq [_] => simp [EllCalc.calcSingleOrParallelCentralCut, hp, RaisesCentral]
  | .seq (b0 :: none :: l) =>
    cases u <;> simp [EllCalc.calcSingleOrParallelCentralCut, hp, RaisesCentral, EllCalc.std]
  | .seq (b0 :: some b1 :: l) =>
    cases u
    · simp [EllCalc.calcSingleOrParallelCentralCut, hp, RaisesCentral, EllCalc.std]
    · simp only [EllCalc.calcSingleOrParallelCentralCut, RaisesCentral, hp, except_ok_bind]
      simp only [EllCalc.std, List.length_cons, Bool.not_true, Bool.false_eq_true, or_false,
        List.getElem?_cons_succ, List.getElem?_cons_zero, iff_false]
      rw [if_neg (by omega)]
      rintro ⟨f, hf⟩
      split_ifs at hf with h1 h2
      rw [calcParallelCentralCut_std hn2 ht (not_le.mp h2).le] at hf
      cases hf

/-- **C18.** A legitimate object never raises on a nonzero gradient and an offset (or pair of offsets)
whose first entry is nonnegative; for `update_q` and `update_central_cut` the sign does not matter. -/
theorem C18_valid_cuts_never_raise {n : ℕ} (e : Ell n) (he : e.WF) (g : Vec n) (hg : g ≠ 0) (β0 β1 : ℝ)
    (m : Method) (hm : match m with | .bias => 0 ≤ β0 | _ => True) :
    (∃ st, (e.update m (g, .scalar β0)).2 = .ok st) ∧
    (∃ st, (e.update m (g, .pair β0 β1)).2 = .ok st) := by
  have hω := he.omega_pos hg
  have ht : 0 < e.kappa * e.omega g := mul_pos he.kappa_pos hω
  obtain ⟨c, hc, hh⟩ := he.built
  have key : ∀ (s : Strategy) (β : CutChoice),
      ¬ (∃ f, s β (e.kappa * e.omega g) = .error f) → ∃ st, (e.updateCore (g, β) s).2 = .ok st := by
    intro s β h
    rw [Ell.updateCore_eq hg hω.ne']
    rcases hx : s β (e.kappa * e.omega g) with f | ⟨st, _ | p⟩
    · exact absurd ⟨f, hx⟩ h
    · exact ⟨st, rfl⟩
    · exact ⟨st, rfl⟩
  cases m with
  | bias =>
    have hm' : 0 ≤ β0 := hm
    constructor <;> refine key _ _ ?_ <;> rw [hh, C18_bias_raises_iff n c hc _ _ _ ht]
    · exact not_lt.mpr hm'
    · simp only [RaisesBias]
      split_ifs
      · exact fun h => absurd h.1 (not_lt.mpr hm')
      · exact not_lt.mpr hm'
  | central =>
    constructor <;> refine key _ _ ?_ <;> rw [hh, C18_central_raises_iff n c hc _ _ _ ht] <;> exact id
  | q =>
    constructor <;> refine key _ _ ?_ <;> rw [hh, C18_q_raises_iff n c hc _ _ _ ht] <;> exact id

/-! ### C19: ranges -/

/-- **C19, single cut.** -/
theorem C19_bias_ranges (n : ℕ) (c : EllCalc) (hc : EllCalc.init n = .ok c) (β τ : ℝ) (hτ : 0 < τ)
    (h0 : 0 ≤ β) (hβ : β ≤ τ) :
    ∃ p, c.calcBiasCut β (τ * τ) = .ok (.success, some p) ∧ β ≤ p.rho ∧ p.rho ≤ τ ∧ 0 < p.sigma ∧
      p.sigma ≤ 1 ∧ 0 ≤ p.delta ∧ (p.sigma < 1 ↔ β < τ) ∧ (0 < p.delta ↔ β < τ) := by
  obtain ⟨hn', rfl⟩ := EllCalc.init_eq hc
  have hn : 2 ≤ n := by exact_mod_cast hn'
  have hn2 : (2 : ℝ) ≤ n := by exact_mod_cast hn
  have hb : 0 < τ + β := by linarith
  have hsq : Real.sqrt (τ * τ) = τ := Real.sqrt_mul_self hτ.le
  have hok := EllCalc.calcBiasCut_success (n := n) (u := true) h0 (mul_pos hτ hτ)
    (mul_self_le_mul_self h0 hβ)
  rw [hsq] at hok
  have h1 := bias_one_sub_sigma (n := n) hn2 hb
  obtain ⟨r1, r2, r3⟩ := bias_rho_range (n := n) hn2 (by positivity) hβ
  have hn1 : (0 : ℝ) < n - 1 := by linarith
  have hs : (biasParams (n : ℝ) β τ).sigma < 1 ↔ β < τ := by
    rw [← sub_pos, h1]
    rw [div_pos_iff_of_pos_right (by positivity), mul_pos_iff_of_pos_left hn1, sub_pos]
  have hd : (biasParams (n : ℝ) β τ).delta = (n : ℝ) ^ 2 / ((n : ℝ) ^ 2 - 1) / τ ^ 2 * ((τ - β) * (τ + β)) := by
    simp only [biasParams]; field_simp; ring
  have hk : 0 < (n : ℝ) ^ 2 / ((n : ℝ) ^ 2 - 1) / τ ^ 2 := by
    have : (0 : ℝ) < (n : ℝ) ^ 2 - 1 := by nlinarith
    positivity
  refine ⟨_, hok, r1, r3, ?_, ?_, ?_, hs, ?_⟩
  · simp only [biasParams]; positivity
  · by_contra hc
    have h2 : 1 - (biasParams (n : ℝ) β τ).sigma < 0 := by linarith
    rw [h1] at h2
    have : 0 ≤ ((n : ℝ) - 1) * (τ - β) / ((n + 1) * (τ + β)) :=
      div_nonneg (mul_nonneg hn1.le (by linarith)) (by positivity)
    linarith
  · rw [hd]; exact mul_nonneg hk.le (mul_nonneg (by linarith) hb.le)
  · rw [hd, mul_pos_iff_of_pos_left hk, mul_pos_iff_of_pos_right hb, sub_pos]

/-- **C19, parallel cut.** -/
theorem C19_parallel_ranges (n : ℕ) (c : EllCalc) (hc : EllCalc.init n = .ok c) (β0 β1 τ : ℝ)
    (h0 : 0 ≤ β0) (h01 : β0 < β1) (hβ : β1 < τ) :
    ∃ p, c.calcParallel β0 β1 (τ * τ) = .ok (.success, some p) ∧ β0 < p.rho ∧ p.rho < β1 ∧
      0 < p.sigma ∧ p.sigma < 1 ∧ 0 < p.delta := by
  obtain ⟨hn', rfl⟩ := EllCalc.init_eq hc
  have hn : 2 ≤ n := by exact_mod_cast hn'
  have hn2 : (2 : ℝ) ≤ n := by exact_mod_cast hn
  have hβ1 : 0 < β1 := by linarith
  have hτ : 0 < τ := by linarith
  have hlt : β1 * β1 < τ * τ := mul_self_lt_mul_self hβ1.le hβ
  exact ⟨_, EllCalc.calcParallel_success (u := true) hn h01.le (fun h => absurd h.2 (not_le.mpr hlt))
    (mul_pos hτ hτ) (by positivity), par_range hn2 (mul_pos hτ hτ) h0 h01 hlt⟩

example : ∃ c, EllCalc.init 5 = .ok c ∧ (0 : ℝ) ≤ 1 / 4 ∧ (1 / 4 : ℝ) < 1 / 2 ∧ (1 / 2 : ℝ) < 1 :=
  ⟨_, EllCalc.init_two_le (n := 5) (by norm_num), by norm_num, by norm_num, by norm_num⟩

end Ellalgo
