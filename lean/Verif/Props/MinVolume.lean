import Verif.Props.Volume
import Verif.Lemmas.MinVolume

/-! # C71, C72: each update returns the smallest ellipsoid there is; Lebesgue volume -/

namespace Ellalgo

open Matrix Spec EllCalcCore MeasureTheory

variable {n : ℕ}

theorem par_tight (hn : 2 ≤ n) {β0 β1 tsq : ℝ} (ht : 0 < tsq) (h01 : β0 ≤ β1) (h0 : β0 ^ 2 ≤ tsq)
    (h1 : β1 ^ 2 ≤ tsq) (hη : 0 ≤ tsq + n * (β0 * β1)) : Tight n β0 β1 tsq (parParams n β0 β1 tsq) := by
  have hn2 : (2 : ℝ) ≤ n := by exact_mod_cast hn
  have hK := (parDen_pos hn2 ht hη).ne'
  have hst := par_stationary hn2 hK
  have hds := par_deltasigma hn2 ht hK
  have hs := par_slabSound hn2 ht hη
  have hδ : 0 ≤ (parParams n β0 β1 tsq).delta := by
    have hx := parXi_nonneg n β0 β1 tsq
    have h2 : 0 ≤ (n : ℝ) * n - 1 := by nlinarith
    have h3 : 0 ≤ tsq - β0 * β0 + (tsq - β1 * β1) := by nlinarith
    simp only [parParams]
    positivity
  have hr : (parParams n β0 β1 tsq).rho = (parParams n β0 β1 tsq).sigma * (β0 + β1) / 2 := rfl
  have hvar : (parParams n β0 β1 tsq).delta * (1 - (parParams n β0 β1 tsq).sigma) * tsq =
      n * ((parParams n β0 β1 tsq).rho - β0) * (β1 - (parParams n β0 β1 tsq).rho) := by
    rw [hr] at hds ⊢
    linear_combination hds + hst
  have hsb : ((n : ℝ) + 1) * ((parParams n β0 β1 tsq).sigma * (β0 + β1) ^ 2) / 2 =
      tsq + β0 * β1 + n / 2 * (β0 + β1) ^ 2 - parXi n β0 β1 tsq := by
    have hd := parXi_disc hn2 β0 β1 tsq
    simp only [parParams]
    rw [div_mul_eq_mul_div, mul_div_assoc', div_div, div_eq_iff (by positivity)]
    unfold parDen
    linear_combination 2 * hd
  have hdel : ((n : ℝ) - 1) * (parParams n β0 β1 tsq).delta * tsq =
      n * (tsq + β0 * β1 - (parParams n β0 β1 tsq).sigma * (β0 + β1) ^ 2 / 2) := by
    have hn1 : (n : ℝ) * n - 1 ≠ 0 := by nlinarith
    have hn3 : (n : ℝ) + 1 ≠ 0 := by positivity
    have e1 : ((n : ℝ) - 1) * (parParams n β0 β1 tsq).delta * tsq =
        n * (n * ((tsq - β0 * β0 + (tsq - β1 * β1)) / 2) + parXi n β0 β1 tsq) / (n + 1) := by
      simp only [parParams]
      rw [show (n : ℝ) * n - 1 = (n - 1) * (n + 1) by ring] at hn1 ⊢
      have := left_ne_zero_of_mul hn1
      field_simp
    rw [e1, div_eq_iff hn3]
    linear_combination (n : ℝ) * hsb
  have hV : 0 ≤ (n : ℝ) * ((parParams n β0 β1 tsq).rho - β0) * (β1 - (parParams n β0 β1 tsq).rho) := by
    rw [← hvar]
    have := hs.sigma_le
    have : 0 ≤ 1 - (parParams n β0 β1 tsq).sigma := by linarith
    positivity
  have hV' : 0 ≤ ((parParams n β0 β1 tsq).rho - β0) * (β1 - (parParams n β0 β1 tsq).rho) := by
    rw [mul_assoc] at hV
    exact nonneg_of_mul_nonneg_right hV (by positivity)
  refine ⟨h0, h1, ?_, ?_, hδ, hvar, ?_⟩
  · by_contra hc
    have : 0 < β1 - (parParams n β0 β1 tsq).rho := by linarith
    nlinarith
  · by_contra hc
    have : 0 < (parParams n β0 β1 tsq).rho - β0 := by linarith
    nlinarith
  · rw [hdel, hvar, hr]; ring

/-- The parameters belong to the smallest ellipsoid around a slab contained in what the cut keeps. -/
def TightFor (n : ℕ) (tsq : ℝ) (keeps : ℝ → Prop) (p : Params) : Prop :=
  ∃ β0 β1, Tight n β0 β1 tsq p ∧ ∀ t, t ^ 2 ≤ tsq → -β1 ≤ t → t ≤ -β0 → keeps t

theorem bias_tightFor (hn : 2 ≤ n) {β tsq : ℝ} (ht : 0 < tsq) (hη : 0 < Real.sqrt tsq + n * β)
    (hβ : β ≤ Real.sqrt tsq) {keeps : ℝ → Prop} (hk : ∀ t, t ^ 2 ≤ tsq → t ≤ -β → keeps t) :
    TightFor n tsq keeps (biasParams n β (Real.sqrt tsq)) := by
  have hn2 : (2 : ℝ) ≤ n := by exact_mod_cast hn
  have hs := Real.sqrt_pos.mpr ht
  have hb : 0 < Real.sqrt tsq + β := by
    by_contra hc
    have : (n : ℝ) * (Real.sqrt tsq + β) ≤ 0 :=
      mul_nonpos_of_nonneg_of_nonpos (by linarith) (by linarith)
    nlinarith
  have hq : Real.sqrt tsq * Real.sqrt tsq = tsq := Real.mul_self_sqrt ht.le
  refine ⟨β, Real.sqrt tsq, ?_, fun t h1 _ h3 => hk t h1 h3⟩
  rw [← parParams_tau hn2 hs hb hβ, hq]
  refine par_tight hn ht hβ ?_ (by rw [Real.sq_sqrt ht.le]) ?_
  · rw [← Real.sq_sqrt ht.le]; exact sq_le_sq' (by linarith) hβ
  · have : tsq + n * (β * Real.sqrt tsq) = Real.sqrt tsq * (Real.sqrt tsq + n * β) := by
      linear_combination -hq
    rw [this]; positivity

/-- The unchanged ellipsoid is already optimal. -/
theorem id_tight {β1 tsq : ℝ} (hn : 2 ≤ n) (ht : 0 < tsq) (h0 : 0 < β1) (h1 : β1 ^ 2 ≤ tsq)
    (h2 : (tsq / (n * β1)) ^ 2 ≤ tsq) :
    Tight n (-(tsq / (n * β1))) β1 tsq ⟨0, 0, 1⟩ := by
  have hn0 : (0 : ℝ) < n := by positivity
  refine ⟨by rwa [neg_sq], h1, ?_, h0.le, zero_le_one, ?_, ?_⟩
  · exact neg_nonpos.mpr (by positivity)
  · field_simp; ring
  · ring

namespace EllCalc

variable {u : Bool}

theorem calcBiasCut_tight {β tsq : ℝ} (hn : 2 ≤ n) (ht : 0 < tsq) {st : CutStatus} {p : Params}
    (h : (std n u).calcBiasCut β tsq = .ok (st, some p)) {keeps : ℝ → Prop}
    (hk : ∀ t, t ^ 2 ≤ tsq → t ≤ -β → keeps t) : TightFor n tsq keeps p := by
  rcases lt_or_ge β 0 with h0 | h0
  · rw [calcBiasCut_neg h0] at h; cases h
  rcases lt_or_ge tsq (β * β) with h1 | h1
  · rw [calcBiasCut_noSoln h0 h1] at h; cases h
  rw [calcBiasCut_success h0 ht h1] at h
  cases h
  have := Real.sqrt_pos.mpr ht
  exact bias_tightFor hn ht (by positivity) (le_sqrt_of_sq h1) hk

theorem calcParallel_tight {β0 β1 tsq : ℝ} (hn : 2 ≤ n) (ht : 0 < tsq) (h0 : 0 ≤ β0) {st : CutStatus}
    {p : Params} (h : (std n u).calcParallel β0 β1 tsq = .ok (st, some p)) :
    TightFor n tsq (fun t => t + β0 ≤ 0 ∧ 0 ≤ t + β1) p := by
  by_cases h01 : β1 < β0
  · unfold calcParallel at h; rw [if_pos h01] at h; cases h
  have h01' := not_lt.mp h01
  have hβ1 : 0 ≤ β1 := h0.trans h01'
  by_cases h1 : β1 > 0 ∧ tsq ≤ β1 * β1
  · unfold calcParallel at h; rw [if_neg h01] at h; simp only at h; rw [if_pos h1] at h
    refine calcBiasCut_tight hn ht h fun t h2 h3 => ⟨by linarith, ?_⟩
    have := abs_le_of_sq_le_sq' (show t ^ 2 ≤ β1 ^ 2 by nlinarith [h1.2]) hβ1
    linarith [this.1]
  · have h2 : β1 * β1 < tsq := by
      rcases hβ1.eq_or_lt with h2 | h2
      · rw [← h2]; simpa using ht
      · by_contra hc; exact h1 ⟨h2, not_lt.mp hc⟩
    rw [calcParallel_success hn h01' h1 ht (by positivity)] at h
    cases h
    exact ⟨β0, β1, par_tight hn ht h01' (by nlinarith) (by nlinarith) (by positivity),
      fun t _ h4 h5 => ⟨by linarith, by linarith⟩⟩

theorem calcCentral_tight {cut : CutChoice} {tsq : ℝ} (hn : 2 ≤ n) (ht : 0 < tsq)
    {st : CutStatus} {p : Params}
    (h : (std n true).calcSingleOrParallelCentralCut cut tsq = .ok (st, some p)) :
    TightFor n tsq cut.keepsCentral p := by
  have hn2 : (2 : ℝ) ≤ n := by exact_mod_cast hn
  have hs := Real.sqrt_pos.mpr ht
  have hc : ∀ (_ : (do
      let tau ← psqrt tsq
      Except.ok (CutStatus.success, some ((std n true).helper.calcCentralCut tau)) : StrategyResult) =
        .ok (st, some p)) (keeps : ℝ → Prop) (_ : ∀ t, t ^ 2 ≤ tsq → t ≤ 0 → keeps t), TightFor n tsq keeps p := by
    intro hh keeps hk
    rw [psqrt_ok ht.le] at hh
    cases hh
    simp only [std]
    rw [calcCentralCut_std hs.ne']
    exact bias_tightFor hn ht (by simpa using ht) hs.le fun t h1 h2 => hk t h1 (by linarith)
  match cut with
  | .scalar β => exact hc h _ fun t _ h2 => h2
  | .seq [] => exact hc h _ fun t _ h2 => h2
  | .seq [_] => exact hc h _ fun t _ h2 => h2
  | .seq (_ :: none :: l) => simp [calcSingleOrParallelCentralCut, std] at h
  | .seq (b0 :: some b1 :: l) =>
    simp only [calcSingleOrParallelCentralCut, std, List.length_cons, Bool.not_true, List.getElem?_cons_succ,
      List.getElem?_cons_zero] at h
    rw [if_neg (by simp)] at h
    split_ifs at h with h1 h2
    · cases h
    · refine hc h _ fun t h3 h4 => ⟨h4, ?_⟩
      have := abs_le_of_sq_le_sq' (show t ^ 2 ≤ b1 ^ 2 by nlinarith) (not_lt.mp h1)
      linarith [this.1]
    · have ht2 : b1 * b1 < tsq := not_le.mp h2
      have e := calcParallelCentralCut_std (n := (n : ℝ)) hn2 ht ht2.le
      rw [e] at h
      cases h
      exact ⟨0, b1, par_tight hn ht (not_lt.mp h1) (by simpa using ht.le) (by nlinarith) (by simpa using ht.le),
        fun t _ h4 h5 => ⟨by linarith, by linarith⟩⟩

theorem calcSingleOrParallel_tight {cut : CutChoice} {tsq : ℝ} (hn : 2 ≤ n) (ht : 0 < tsq)
    (h0 : cut.FirstNonneg) {st : CutStatus} {p : Params}
    (h : (std n true).calcSingleOrParallel cut tsq = .ok (st, some p)) : TightFor n tsq cut.keeps p := by
  match cut with
  | .scalar β => exact calcBiasCut_tight hn ht h fun t _ h2 => by simp only [CutChoice.keeps]; linarith
  | .seq [] => simp [calcSingleOrParallel, firstOffset] at h
  | .seq [none] => simp [calcSingleOrParallel, firstOffset] at h
  | .seq [some β] =>
    simp only [calcSingleOrParallel, List.length_singleton, Nat.one_lt_ofNat, true_or,
      if_true, firstOffset, except_ok_bind] at h
    exact calcBiasCut_tight hn ht h fun t _ h2 => by simp only [CutChoice.keeps]; linarith
  | .seq (none :: b1 :: l) =>
    simp [calcSingleOrParallel, firstOffset, std] at h
    split at h <;> cases h
  | .seq (some β0 :: none :: l) => simp [calcSingleOrParallel, std] at h
  | .seq (some β0 :: some β1 :: l) =>
    have h' : (std n true).calcParallel β0 β1 tsq = .ok (st, some p) := by
      simpa [calcSingleOrParallel, firstOffset, std] using h
    exact calcParallel_tight hn ht (h0 β0 rfl) h'

end EllCalc

/-- The first offset is at least `-τ` (the first cut is not void). -/
def CutChoice.FirstReaches (τ : ℝ) : CutChoice → Prop
  | .scalar β => -τ ≤ β
  | .seq bs => ∀ β, bs.head? = some (some β) → -τ ≤ β

namespace EllCalc

theorem calcBiasCutQ_tight {u : Bool} {β tsq : ℝ} (hn : 2 ≤ n) (ht : 0 < tsq) {st : CutStatus} {r : Option Params}
    (h : (std n u).calcBiasCutQ β tsq = .ok (st, r)) (hst : st ≠ .noSoln) {keeps : ℝ → Prop}
    (hk : ∀ t, t ^ 2 ≤ tsq → t ≤ -β → keeps t) : TightFor n tsq keeps (r.getD ⟨0, 0, 1⟩) := by
  have hs := Real.sqrt_pos.mpr ht
  have hn0 : (0 : ℝ) < n := by positivity
  have hn1 : (1 : ℝ) ≤ n := by exact_mod_cast (by omega : 1 ≤ n)
  by_cases h0 : Real.sqrt tsq < β
  · unfold calcBiasCutQ at h; rw [psqrt_ok ht.le] at h; simp only [except_ok_bind] at h
    rw [if_pos h0] at h; cases h; exact absurd rfl hst
  by_cases h1 : Real.sqrt tsq + n * β ≤ 0
  · unfold calcBiasCutQ at h; rw [psqrt_ok ht.le] at h; simp only [except_ok_bind] at h
    rw [if_neg h0] at h
    rw [if_pos (show Real.sqrt tsq + (std n u).nF * β ≤ 0 from h1)] at h; cases h
    have hq : Real.sqrt tsq ^ 2 = tsq := Real.sq_sqrt ht.le
    have hd : tsq / (n * Real.sqrt tsq) = Real.sqrt tsq / n := by
      rw [div_eq_div_iff (by positivity) hn0.ne']
      linear_combination (-(n : ℝ)) * hq
    refine ⟨_, _, id_tight hn ht hs hq.le ?_, fun t h2 _ h4 => hk t h2 ?_⟩
    · rw [hd, div_pow, hq, div_le_iff₀ (by positivity)]
      nlinarith [mul_le_mul hn1 hn1 zero_le_one hn0.le]
    · rw [hd, neg_neg, le_div_iff₀ hn0] at h4
      have : t * n ≤ -β * n := by linarith
      exact le_of_mul_le_mul_right this hn0
  · rw [calcBiasCutQ_eq ht (not_le.mp h1) hn (not_lt.mp h0)] at h
    cases h
    exact bias_tightFor hn ht (not_le.mp h1) (not_lt.mp h0) hk

theorem calcParallelQ_tight {u : Bool} {β0 β1 tsq : ℝ} (hn : 2 ≤ n) (ht : 0 < tsq) {st : CutStatus}
    {r : Option Params} (h : (std n u).calcParallelQ β0 β1 tsq = .ok (st, r)) (hst : st ≠ .noSoln)
    (hβ : -Real.sqrt tsq ≤ β0) : TightFor n tsq (fun t => t + β0 ≤ 0 ∧ 0 ≤ t + β1) (r.getD ⟨0, 0, 1⟩) := by
  have hs := Real.sqrt_pos.mpr ht
  have hq : Real.sqrt tsq ^ 2 = tsq := Real.sq_sqrt ht.le
  have hn0 : (0 : ℝ) < n := by positivity
  by_cases h0 : β1 < β0
  · unfold calcParallelQ at h; rw [if_pos h0] at h; cases h; exact absurd rfl hst
  have h01 := not_lt.mp h0
  by_cases h1 : β1 > 0 ∧ tsq ≤ β1 * β1
  · unfold calcParallelQ at h; rw [if_neg h0] at h; simp only at h; rw [if_pos h1] at h
    refine calcBiasCutQ_tight hn ht h hst fun t h2 h3 => ⟨by linarith, ?_⟩
    have := abs_le_of_sq_le_sq' (show t ^ 2 ≤ β1 ^ 2 by nlinarith [h1.2]) h1.1.le
    linarith [this.1]
  have hb1 : β1 ≤ Real.sqrt tsq := by
    rcases le_or_gt β1 0 with h2 | h2
    · linarith
    · by_contra hc
      refine h1 ⟨h2, ?_⟩
      rw [← hq]; nlinarith [not_le.mp hc]
  have hsq1 : β1 ^ 2 ≤ tsq := by rw [← hq]; exact sq_le_sq' (by linarith) hb1
  have hsq0 : β0 ^ 2 ≤ tsq := by rw [← hq]; exact sq_le_sq' hβ (by linarith)
  by_cases h2 : tsq + n * (β0 * β1) ≤ 0
  · unfold calcParallelQ at h; rw [if_neg h0] at h; simp only at h; rw [if_neg h1] at h
    rw [if_pos (show tsq + (std n u).nF * (β0 * β1) ≤ 0 from h2)] at h; cases h
    have hneg : β0 * β1 < 0 := by
      by_contra hc
      have : 0 ≤ (n : ℝ) * (β0 * β1) := mul_nonneg hn0.le (not_lt.mp hc)
      linarith
    have hβ1 : 0 < β1 := by
      by_contra hc
      have : 0 ≤ β0 * β1 := mul_nonneg_of_nonpos_of_nonpos (by linarith [not_lt.mp hc]) (not_lt.mp hc)
      linarith
    have hd : tsq / (n * β1) ≤ -β0 := by
      rw [div_le_iff₀ (by positivity)]; linarith
    have hd0 : 0 ≤ tsq / (n * β1) := by positivity
    refine ⟨_, _, id_tight hn ht hβ1 hsq1 ?_, fun t _ h4 h5 => ⟨?_, by linarith⟩⟩
    · nlinarith
    · rw [neg_neg] at h5; linarith
  · rw [calcParallelQ_eq hn h01 h1 ht (not_le.mp h2)] at h
    cases h
    exact ⟨β0, β1, par_tight hn ht h01 hsq0 hsq1 (not_le.mp h2).le, fun t _ h4 h5 => ⟨by linarith, by linarith⟩⟩

theorem calcSingleOrParallelQ_tight {cut : CutChoice} {tsq : ℝ} (hn : 2 ≤ n) (ht : 0 < tsq)
    (hβ : cut.FirstReaches (Real.sqrt tsq)) {st : CutStatus} {r : Option Params} (hst : st ≠ .noSoln)
    (h : (std n true).calcSingleOrParallelQ cut tsq = .ok (st, r)) :
    TightFor n tsq cut.keeps (r.getD ⟨0, 0, 1⟩) := by
  match cut with
  | .scalar β => exact calcBiasCutQ_tight hn ht h hst fun t _ h2 => by simp only [CutChoice.keeps]; linarith
  | .seq [] => simp [calcSingleOrParallelQ, firstOffset] at h
  | .seq [none] => simp [calcSingleOrParallelQ, firstOffset] at h
  | .seq [some β] =>
    simp only [calcSingleOrParallelQ, List.length_singleton, Nat.one_lt_ofNat, true_or,
      if_true, firstOffset, except_ok_bind] at h
    exact calcBiasCutQ_tight hn ht h hst fun t _ h2 => by simp only [CutChoice.keeps]; linarith
  | .seq (none :: b1 :: l) =>
    simp [calcSingleOrParallelQ, firstOffset, std] at h
    split at h <;> cases h
  | .seq (some β0 :: none :: l) => simp [calcSingleOrParallelQ, std] at h
  | .seq (some β0 :: some β1 :: l) =>
    have h' : (std n true).calcParallelQ β0 β1 tsq = .ok (st, r) := by
      simpa [calcSingleOrParallelQ, firstOffset, std] using h
    exact calcParallelQ_tight hn ht h' hst (hβ β0 rfl)

end EllCalc

/-- What a cut keeps of the search space, per method. -/
def keptBy {n : ℕ} : Method → Cut n → Vec n → Set (Vec n)
  | .central => keptSetCentral
  | _ => keptSet

/-- The offsets for which the method is meant: nonnegative first offset for `update_bias_cut`, no condition on
the offsets for `update_central_cut`, first offset `≥ -τ` for `update_q`. -/
def Method.Meant (τ : ℝ) : Method → CutChoice → Prop
  | .bias, c => c.FirstNonneg
  | .central, _ => True
  | .q, c => c.FirstReaches τ

theorem minimal_of_tightFor {e : Ell n} (he : e.WF) (hn : 2 ≤ n) {g : Vec n} (hg : g ≠ 0) {keeps : ℝ → Prop}
    {p : Params} (hp : TightFor n (e.kappa * e.omega g) keeps p) {Q : Mat n} (hQ : Q.PosDef) {κ : ℝ} (hκ : 0 < κ)
    {a : Vec n} (hc : ∀ x ∈ e.region, keeps (g ⬝ᵥ (x - e.xc)) → x ∈ ellipsoid Q κ a) :
    (cutShape e.mq e.kappa g p).det ≤ (κ • Q).det ∧
    ((κ • Q).det ≤ (cutShape e.mq e.kappa g p).det →
      κ • Q = cutShape e.mq e.kappa g p ∧ a = e.xc - (p.rho / e.omega g) • (e.mq *ᵥ g)) := by
  obtain ⟨β0, β1, ht, hk⟩ := hp
  exact minimal_of_tight hn he.posDef he.kappa_pos hg e.xc ht hQ hκ fun x hx h1 h2 =>
    hc x hx (hk _ (Ell.sq_le_tsq he hx g) h1 h2)

theorem applied_cutShape (e : Ell n) (g : Vec n) (p : Params) :
    (e.applied g p).kappa • (e.applied g p).mq = cutShape e.mq e.kappa g p := by
  unfold Ell.applied cutShape Ell.omega
  cases e.noDeferTrick <;> simp

/-- **C71.** Every update returns the smallest ellipsoid that contains what the cut leaves of the current one, and the only one of
that size. Here "returns" covers `Success` of the three methods and `NoEffect` of `update_q` (the object is left alone because it
is already the smallest). `det (κ•Q)` is the squared volume up to the factor of the unit ball, see `C72_volume_is_det`. -/
theorem C71_minimum_volume (e : Ell n) (he : e.WF) (hpar : e.helper.useParallelCut = true) (m : Method) (cut : Cut n)
    (hm : m.Meant (Real.sqrt (e.kappa * (cut.1 ⬝ᵥ (e.mq *ᵥ cut.1)))) cut.2) (e' : Ell n) (st : CutStatus)
    (hst : st ≠ .noSoln) (h : e.update m cut = (e', .ok st))
    (Q : Mat n) (hQ : Q.PosDef) (κ : ℝ) (hκ : 0 < κ) (a : Vec n)
    (hc : e.region ∩ keptBy m cut e.xc ⊆ ellipsoid Q κ a) :
    (e'.kappa • e'.mq).det ≤ (κ • Q).det ∧
    ((κ • Q).det = (e'.kappa • e'.mq).det → κ • Q = e'.kappa • e'.mq ∧ a = e'.xc) := by
  obtain ⟨hn, hh⟩ := he.built.helper_eq
  rw [hpar] at hh
  have fin : ∀ (keeps : ℝ → Prop) (p : Params), cut.1 ≠ 0 → TightFor n (e.kappa * e.omega cut.1) keeps p →
      (∀ x ∈ e.region, keeps (cut.1 ⬝ᵥ (x - e.xc)) → x ∈ ellipsoid Q κ a) →
      ((e.applied cut.1 p).kappa • (e.applied cut.1 p).mq).det ≤ (κ • Q).det ∧
      ((κ • Q).det = ((e.applied cut.1 p).kappa • (e.applied cut.1 p).mq).det →
        κ • Q = (e.applied cut.1 p).kappa • (e.applied cut.1 p).mq ∧ a = (e.applied cut.1 p).xc) := by
    intro keeps p hg hp hc
    rw [applied_cutShape]
    obtain ⟨h1, h2⟩ := minimal_of_tightFor he hn hg hp hQ hκ hc
    exact ⟨h1, fun h3 => h2 h3.le⟩
  match m, hm, h, hc with
  | .bias, hm, h, hc =>
    obtain ⟨hg, ht, ⟨p, hp, rfl⟩ | hr⟩ := Ell.updateCore_inv he h
    · rw [hh] at hp
      exact fin _ p hg (EllCalc.calcSingleOrParallel_tight hn ht hm hp) fun x hx hk => hc ⟨hx, hk⟩
    · exact absurd (EllCalc.calcSingleOrParallel_none hr.1).1 hst
  | .central, _, h, hc =>
    obtain ⟨hg, ht, ⟨p, hp, rfl⟩ | hr⟩ := Ell.updateCore_inv he h
    · rw [hh] at hp
      exact fin _ p hg (EllCalc.calcCentral_tight hn ht hp) fun x hx hk => hc ⟨hx, hk⟩
    · exact absurd (EllCalc.calcCentral_none hr.1).1 hst
  | .q, hm, h, hc =>
    obtain ⟨hg, ht, ⟨p, hp, rfl⟩ | ⟨hr, rfl⟩⟩ := Ell.updateCore_inv he h
    · rw [hh] at hp
      exact fin _ p hg (EllCalc.calcSingleOrParallelQ_tight hn ht hm hst hp) fun x hx hk => hc ⟨hx, hk⟩
    · rw [hh] at hr
      obtain ⟨h1, h2⟩ := minimal_of_tightFor he hn hg (EllCalc.calcSingleOrParallelQ_tight hn ht hm hst hr) hQ hκ
        fun x hx hk => hc ⟨hx, hk⟩
      have e1 : cutShape e.mq e.kappa cut.1 ⟨0, 0, 1⟩ = e.kappa • e.mq := by simp [cutShape]
      simp only [Option.getD_none] at h1 h2
      rw [e1] at h1 h2
      refine ⟨h1, fun h3 => ?_⟩
      simpa using h2 h3.le

theorem unitDisc_quad : unitDisc.kappa * ((![1, 0] : Vec 2) ⬝ᵥ (unitDisc.mq *ᵥ ![1, 0])) = 1 := unitDisc_tsq

/-- A parallel deep cut. -/
example : unitDisc.helper.useParallelCut = true ∧
    Method.bias.Meant (Real.sqrt (unitDisc.kappa * ((![1, 0] : Vec 2) ⬝ᵥ (unitDisc.mq *ᵥ ![1, 0])))) (.pair (1 / 4) (3 / 4)) ∧
    ∃ e', unitDisc.update .bias (![1, 0], .pair (1 / 4) (3 / 4)) = (e', .ok .success) ∧
      unitDisc.region ∩ keptBy .bias (![1, 0], .pair (1 / 4) (3 / 4)) unitDisc.xc ⊆ ellipsoid (1 : Mat 2) 1 0 := by
  refine ⟨rfl, fun b hb => ?_, _, Ell.updateCore_some e1_ne_zero unitDisc_omega_ne (by
      rw [unitDisc_tsq]
      exact EllCalc.calcParallel_success (u := true) le_rfl (by norm_num) (by norm_num) (by norm_num)
        (by norm_num)), fun x hx => hx.1⟩
  simp at hb; rw [← hb]; norm_num

/-- A shallow cut that `update_q` ignores. -/
example : Method.q.Meant (Real.sqrt (unitDisc.kappa * ((![1, 0] : Vec 2) ⬝ᵥ (unitDisc.mq *ᵥ ![1, 0]))))
      (.pair (-3 / 4) (7 / 8)) ∧
    ∃ e', unitDisc.update .q (![1, 0], .pair (-3 / 4) (7 / 8)) = (e', .ok .noEffect) := by
  refine ⟨fun b hb => ?_, _, Ell.updateCore_none e1_ne_zero unitDisc_omega_ne (by
      rw [unitDisc_tsq]
      show (EllCalc.std 2 true).calcSingleOrParallelQ _ _ = _
      norm_num [EllCalc.calcSingleOrParallelQ, EllCalc.calcParallelQ, EllCalc.firstOffset, EllCalc.std])⟩
  simp at hb; rw [← hb, unitDisc_quad, Real.sqrt_one]; norm_num

/-- **C71, the excluded case.** `update_q` with a pair whose first cut is void (`β0 < -τ`) answers `NoEffect` although the second
cut is a useful one: for the unit disc and `-2/5 ≤ x₀ ≤ 2` a strictly smaller ellipsoid contains everything that is left, and
`update_q` finds it when it is given the single cut `-x₀ - 2/5 ≤ 0` instead. -/
theorem C71_void_first_cut :
    (∃ e', unitDisc.updateQ (![1, 0], .pair (-2) (2 / 5)) = (e', .ok .noEffect) ∧ e'.region = unitDisc.region) ∧
    ∃ e', unitDisc.updateQ (![-1, 0], .scalar (-2 / 5)) = (e', .ok .success) ∧ e'.WF ∧
      unitDisc.region ∩ keptSet (![1, 0], .pair (-2) (2 / 5)) unitDisc.xc ⊆ e'.region ∧
      (e'.kappa • e'.mq).det < (unitDisc.kappa • unitDisc.mq).det := by
  have hg : (![-1, 0] : Vec 2) ≠ 0 := fun h => by simpa using congrFun h 0
  have hom : unitDisc.omega ![-1, 0] = 1 := by simp [Ell.omega, unitDisc]
  have hom0 : unitDisc.omega ![-1, 0] ≠ 0 := by rw [hom]; norm_num
  have hts : unitDisc.kappa * unitDisc.omega ![-1, 0] = 1 := by rw [hom]; norm_num [unitDisc]
  constructor
  · refine ⟨_, Ell.updateCore_none e1_ne_zero unitDisc_omega_ne (by
      rw [unitDisc_tsq]
      show (EllCalc.std 2 true).calcSingleOrParallelQ _ _ = _
      norm_num [EllCalc.calcSingleOrParallelQ, EllCalc.calcParallelQ, EllCalc.firstOffset, EllCalc.std]), rfl⟩
  · have hq : (EllCalc.std 2 true).calcBiasCutQ (-2 / 5) 1 =
        .ok (.success, some (biasParams (2 : ℕ) (-2 / 5) (Real.sqrt 1))) :=
      EllCalc.calcBiasCutQ_eq (n := 2) one_pos (by rw [Real.sqrt_one]; norm_num) le_rfl (by rw [Real.sqrt_one]; norm_num)
    have hup : unitDisc.updateQ (![-1, 0], .scalar (-2 / 5)) = (_, .ok .success) :=
      Ell.updateCore_some hg hom0 (by rw [hts]; exact hq)
    have hsound := (EllCalc.calcSingleOrParallelQ_sound (u := true) (cut := .scalar (-2 / 5)) le_rfl one_pos hq).2
    have hs : (biasParams (2 : ℕ) (-2 / 5) (Real.sqrt 1)).sigma < 1 ∧ 0 < (biasParams (2 : ℕ) (-2 / 5) (Real.sqrt 1)).delta := by
      rw [Real.sqrt_one]; norm_num [biasParams]
    have hwf := Ell.applied_WF unitDisc_WF hg hs.1 hs.2
    refine ⟨_, hup, hwf, fun x hx => ?_, ?_⟩
    · rw [hwf.region_eq_hull]
      refine Ell.applied_contains unitDisc_WF hg (by rw [hts]; exact hsound) hx.1 ?_
      have h2 : ![1, 0] ⬝ᵥ (x - unitDisc.xc) + -2 ≤ 0 ∧ 0 ≤ ![1, 0] ⬝ᵥ (x - unitDisc.xc) + 2 / 5 := hx.2
      have h3 : ![-1, 0] ⬝ᵥ (x - unitDisc.xc) = -(![1, 0] ⬝ᵥ (x - unitDisc.xc)) := by
        simp [dotProduct, Fin.sum_univ_two]
      show ![-1, 0] ⬝ᵥ (x - unitDisc.xc) + -2 / 5 ≤ 0
      rw [h3]; linarith [h2.2]
    · rw [applied_det unitDisc_WF hg]
      have h4 : volFactor 2 (biasParams (2 : ℕ) (-2 / 5) (Real.sqrt 1)) < 1 := by
        rw [Real.sqrt_one]; norm_num [volFactor, biasParams]
      have h5 : (0 : ℝ) < (unitDisc.kappa • unitDisc.mq).det := WF.det_pos unitDisc_WF
      nlinarith

end Ellalgo
