import Verif.Spec.Cut
import Verif.Lemmas.CalcVariants
import Verif.Lemmas.EllipsoidGeom

/-! Strategy results and their effect on an `Ell`. -/

namespace Ellalgo

open Matrix Spec EllCalcCore

namespace EllCalc

/-- The helper for dimension `n`. -/
noncomputable def std (n : ℕ) (u : Bool) : EllCalc :=
  { useParallelCut := u, nF := n, helper := EllCalcCore.std n }

theorem init_eq {n : ℤ} {c : EllCalc} (h : init n = .ok c) :
    2 ≤ n ∧ c = { useParallelCut := true, nF := n, helper := EllCalcCore.std n } := by
  unfold init at h
  split_ifs at h with hn
  have h2 : (2 : ℝ) ≤ (n : ℝ) := by exact_mod_cast hn
  rw [EllCalcCore.init_ok h2] at h
  simp only [except_ok_bind, Except.ok.injEq] at h
  exact ⟨hn, h.symm⟩

theorem init_two_le {n : ℕ} (hn : 2 ≤ n) : init (n : ℤ) = .ok (std n true) := by
  have h2 : (2 : ℝ) ≤ (((n : ℕ) : ℤ) : ℝ) := by exact_mod_cast hn
  have h3 : ((n : ℕ) : ℤ) ≥ 2 := by exact_mod_cast hn
  unfold init
  rw [if_pos h3, EllCalcCore.init_ok h2]
  simp [std]

variable {n : ℕ} {u : Bool}

theorem calcBiasCut_neg {c : EllCalc} {β tsq : ℝ} (h : β < 0) :
    c.calcBiasCut β tsq = .error .assertion := by
  unfold calcBiasCut; rw [if_neg (not_le.mpr h)]

theorem calcBiasCut_noSoln {c : EllCalc} {β tsq : ℝ} (h0 : 0 ≤ β) (h : tsq < β * β) :
    c.calcBiasCut β tsq = .ok (.noSoln, none) := by
  unfold calcBiasCut; rw [if_pos h0]; simp only; rw [if_pos h]

theorem le_sqrt_of_sq {β tsq : ℝ} (h : β * β ≤ tsq) : β ≤ Real.sqrt tsq := by
  apply Real.le_sqrt_of_sq_le; nlinarith

theorem calcBiasCut_success {β tsq : ℝ} (h0 : 0 ≤ β) (ht : 0 < tsq) (h : β * β ≤ tsq) :
    (std n u).calcBiasCut β tsq = .ok (.success, some (biasParams n β (Real.sqrt tsq))) := by
  have hs := Real.sqrt_pos.mpr ht
  unfold calcBiasCut; rw [if_pos h0]; simp only; rw [if_neg (not_lt.mpr h), psqrt_ok ht.le]
  simp only [except_ok_bind, std]
  rw [calcBiasCut_std hs.ne' (by linarith)]
  rfl

/-- `0 ≤ τ² + nβ0β1`, the side condition of the parallel formula; always true when `0 ≤ β0 ≤ β1`. -/
def EtaOK (n : ℕ) (cut : CutChoice) (tsq : ℝ) : Prop :=
  match cut with
  | .seq (some β0 :: some β1 :: _) => 0 ≤ tsq + n * (β0 * β1)
  | _ => True

theorem calcParallel_success {β0 β1 tsq : ℝ} (hn : 2 ≤ n) (hle : β0 ≤ β1)
    (hb : ¬ (β1 > 0 ∧ tsq ≤ β1 * β1)) (ht : 0 < tsq) (hη : 0 ≤ tsq + n * (β0 * β1)) :
    (std n u).calcParallel β0 β1 tsq = .ok (.success, some (parParams n β0 β1 tsq)) := by
  have hn2 : (2 : ℝ) ≤ n := by exact_mod_cast hn
  unfold calcParallel
  rw [if_neg (not_lt.mpr hle)]
  simp only
  rw [if_neg hb]
  simp only [std]
  rw [calcParallelBiasCut_std hn2 ht.ne' (parDen_pos hn2 ht hη).ne']
  rfl

/-- What every strategy promises about the parameters it returns. -/
def ParamsSound (keeps : ℝ → Prop) (tsq : ℝ) (p : Params) : Prop :=
  ∃ β0 β1, SlabSound β0 β1 tsq p ∧ ∀ t, t ^ 2 ≤ tsq → keeps t → -β1 ≤ t ∧ t ≤ -β0

theorem neg_sqrt_le {t tsq : ℝ} (h : t ^ 2 ≤ tsq) : -Real.sqrt tsq ≤ t :=
  (abs_le.mp (Real.abs_le_sqrt h)).1

theorem bias_paramsSound {β tsq : ℝ} (hn : 2 ≤ n) (ht : 0 < tsq)
    (hη : 0 ≤ Real.sqrt tsq + n * β) (hβ : β ≤ Real.sqrt tsq) {keeps : ℝ → Prop}
    (hk : ∀ t, keeps t → t ≤ -β) :
    ParamsSound keeps tsq (biasParams n β (Real.sqrt tsq)) := by
  have hn2 : (2 : ℝ) ≤ n := by exact_mod_cast hn
  refine ⟨β, Real.sqrt tsq, ?_, fun t h1 h2 => ⟨neg_sqrt_le h1, hk t h2⟩⟩
  have := bias_slabSound hn2 (Real.sqrt_pos.mpr ht) hη hβ
  rwa [Real.sq_sqrt ht.le] at this

theorem calcBiasCut_sound {β tsq : ℝ} (hn : 2 ≤ n) (ht : 0 < tsq) {st : CutStatus} {p : Params}
    (h : (std n u).calcBiasCut β tsq = .ok (st, some p)) {keeps : ℝ → Prop}
    (hk : ∀ t, keeps t → t ≤ -β) :
    st = .success ∧ ParamsSound keeps tsq p := by
  rcases lt_or_ge β 0 with h0 | h0
  · rw [calcBiasCut_neg h0] at h; cases h
  rcases lt_or_ge tsq (β * β) with h1 | h1
  · rw [calcBiasCut_noSoln h0 h1] at h; cases h
  rw [calcBiasCut_success h0 ht h1] at h
  cases h
  exact ⟨rfl, bias_paramsSound hn ht (by positivity) (le_sqrt_of_sq h1) hk⟩

theorem calcParallel_sound {β0 β1 tsq : ℝ} (hn : 2 ≤ n) (ht : 0 < tsq)
    (hη : 0 ≤ tsq + n * (β0 * β1)) {st : CutStatus} {p : Params}
    (h : (std n u).calcParallel β0 β1 tsq = .ok (st, some p)) {keeps : ℝ → Prop}
    (hk : ∀ t, keeps t → -β1 ≤ t ∧ t ≤ -β0) :
    st = .success ∧ ParamsSound keeps tsq p := by
  have hn2 : (2 : ℝ) ≤ n := by exact_mod_cast hn
  by_cases h0 : β1 < β0
  · unfold calcParallel at h; rw [if_pos h0] at h; cases h
  by_cases h1 : β1 > 0 ∧ tsq ≤ β1 * β1
  · unfold calcParallel at h; rw [if_neg h0] at h; simp only at h; rw [if_pos h1] at h
    exact calcBiasCut_sound hn ht h (fun t ht => (hk t ht).2)
  · rw [calcParallel_success hn (not_lt.mp h0) h1 ht hη] at h
    cases h
    exact ⟨rfl, β0, β1, par_slabSound hn2 ht hη, fun t _ h2 => hk t h2⟩

theorem calcSingleOrParallel_sound {cut : CutChoice} {tsq : ℝ} (hn : 2 ≤ n) (ht : 0 < tsq)
    (hη : EtaOK n cut tsq) {st : CutStatus} {p : Params}
    (h : (std n u).calcSingleOrParallel cut tsq = .ok (st, some p)) :
    st = .success ∧ ParamsSound cut.keeps tsq p := by
  match cut, hη with
  | .scalar β, _ =>
    exact calcBiasCut_sound hn ht h (fun t h => by simp only [CutChoice.keeps] at h; linarith)
  | .seq [], _ => simp [calcSingleOrParallel, firstOffset] at h
  | .seq [none], _ => simp [calcSingleOrParallel, firstOffset] at h
  | .seq [some β], _ =>
    simp only [calcSingleOrParallel, List.length_singleton, Nat.one_lt_ofNat, true_or, if_true,
      firstOffset, except_ok_bind] at h
    exact calcBiasCut_sound hn ht h (fun t h => by simp only [CutChoice.keeps] at h; linarith)
  | .seq (none :: b1 :: l), _ =>
    simp [calcSingleOrParallel, firstOffset] at h
    split_ifs at h
    split at h <;> cases h
  | .seq (some β0 :: none :: l), _ =>
    simp [calcSingleOrParallel, firstOffset] at h
    split_ifs at h
    exact calcBiasCut_sound hn ht h (fun t h => by simp only [CutChoice.keeps] at h; linarith)
  | .seq (some β0 :: some β1 :: l), hη =>
    simp only [EtaOK] at hη
    have hk : ∀ t, (CutChoice.seq (some β0 :: some β1 :: l)).keeps t → -β1 ≤ t ∧ t ≤ -β0 := by
      intro t ht
      simp only [CutChoice.keeps] at ht
      exact ⟨by linarith, by linarith⟩
    simp [calcSingleOrParallel, firstOffset] at h
    split_ifs at h
    · exact calcBiasCut_sound hn ht h (fun t ht => (hk t ht).2)
    · exact calcParallel_sound hn ht hη h hk

theorem central_paramsSound {tsq : ℝ} (hn : 2 ≤ n) (ht : 0 < tsq) {keeps : ℝ → Prop}
    (hk : ∀ t, keeps t → t ≤ 0) :
    ParamsSound keeps tsq ((EllCalcCore.std n).calcCentralCut (Real.sqrt tsq)) := by
  rw [calcCentralCut_std (Real.sqrt_pos.mpr ht).ne']
  exact bias_paramsSound hn ht (by simp) (Real.sqrt_nonneg _) (by simpa using hk)

theorem keepsCentral_nonpos {cut : CutChoice} {t : ℝ} (h : cut.keepsCentral t) : t ≤ 0 := by
  unfold CutChoice.keepsCentral at h
  split at h
  · exact h.1
  · exact h

theorem calcCentral_sound {cut : CutChoice} {tsq : ℝ} (hn : 2 ≤ n) (ht : 0 < tsq)
    {st : CutStatus} {p : Params}
    (h : (std n u).calcSingleOrParallelCentralCut cut tsq = .ok (st, some p)) :
    st = .success ∧ ParamsSound cut.keepsCentral tsq p := by
  have hn2 : (2 : ℝ) ≤ n := by exact_mod_cast hn
  have hc : ∀ (hh : (do
      let tau ← psqrt tsq
      Except.ok (CutStatus.success, some ((std n u).helper.calcCentralCut tau)) : StrategyResult) =
        .ok (st, some p)), st = .success ∧ ParamsSound cut.keepsCentral tsq p := by
    intro hh
    rw [psqrt_ok ht.le] at hh
    cases hh
    exact ⟨rfl, central_paramsSound hn ht (fun t h => keepsCentral_nonpos h)⟩
  match cut with
  | .scalar β => exact hc h
  | .seq bs =>
    simp only [calcSingleOrParallelCentralCut] at h
    split_ifs at h
    · exact hc h
    · split at h
      · rename_i b1 hb
        split_ifs at h with h1 h2
        · cases h
        · exact hc h
        · have ht2 : b1 * b1 < tsq := not_le.mp h2
          have e := calcParallelCentralCut_std (n := (n : ℝ)) hn2 ht ht2.le
          simp only [std] at h
          rw [e] at h
          cases h
          refine ⟨rfl, 0, b1, par_slabSound hn2 ht (by simpa using ht.le), ?_⟩
          intro t _ hk
          match bs, hb with
          | _ :: some b :: _, hb =>
            simp at hb
            subst hb
            simp only [CutChoice.keepsCentral] at hk
            exact ⟨by linarith, by linarith⟩
      · cases h

theorem calcBiasCutQ_eq {β tsq : ℝ} (ht : 0 < tsq) (hη : 0 < Real.sqrt tsq + n * β)
    (hn : 2 ≤ n) (hβ : β ≤ Real.sqrt tsq) :
    (std n u).calcBiasCutQ β tsq = .ok (.success, some (biasParams n β (Real.sqrt tsq))) := by
  have hs := Real.sqrt_pos.mpr ht
  have hn2 : (2 : ℝ) ≤ n := by exact_mod_cast hn
  have hb : 0 < Real.sqrt tsq + β := by
    by_contra hc
    have : (n : ℝ) * (Real.sqrt tsq + β) ≤ 0 :=
      mul_nonpos_of_nonneg_of_nonpos (by linarith) (by linarith)
    nlinarith
  unfold calcBiasCutQ
  rw [psqrt_ok ht.le]
  simp only [except_ok_bind]
  rw [if_neg (not_lt.mpr hβ)]
  rw [if_neg (show ¬ (Real.sqrt tsq + (std n u).nF * β ≤ 0) from not_le.mpr hη)]
  simp only [std]
  rw [calcBiasCutFast_std hs.ne' hb.ne']
  rfl

theorem calcBiasCutQ_sound {β tsq : ℝ} (hn : 2 ≤ n) (ht : 0 < tsq) {st : CutStatus} {p : Params}
    (h : (std n u).calcBiasCutQ β tsq = .ok (st, some p)) {keeps : ℝ → Prop}
    (hk : ∀ t, keeps t → t ≤ -β) :
    st = .success ∧ ParamsSound keeps tsq p := by
  by_cases h0 : Real.sqrt tsq < β
  · unfold calcBiasCutQ at h; rw [psqrt_ok ht.le] at h; simp only [except_ok_bind] at h
    rw [if_pos h0] at h; cases h
  by_cases h1 : Real.sqrt tsq + n * β ≤ 0
  · unfold calcBiasCutQ at h; rw [psqrt_ok ht.le] at h; simp only [except_ok_bind] at h
    rw [if_neg h0] at h
    rw [if_pos (show Real.sqrt tsq + (std n u).nF * β ≤ 0 from h1)] at h; cases h
  rw [calcBiasCutQ_eq ht (not_le.mp h1) hn (not_lt.mp h0)] at h
  cases h
  exact ⟨rfl, bias_paramsSound hn ht (not_le.mp h1).le (not_lt.mp h0) hk⟩

theorem calcParallelQ_eq {β0 β1 tsq : ℝ} (hn : 2 ≤ n) (hle : β0 ≤ β1)
    (hb : ¬ (β1 > 0 ∧ tsq ≤ β1 * β1)) (ht : 0 < tsq) (hη : 0 < tsq + n * (β0 * β1)) :
    (std n u).calcParallelQ β0 β1 tsq = .ok (.success, some (parParams n β0 β1 tsq)) := by
  have hn2 : (2 : ℝ) ≤ n := by exact_mod_cast hn
  unfold calcParallelQ
  rw [if_neg (not_lt.mpr hle)]
  simp only
  rw [if_neg hb]
  rw [if_neg (show ¬ (tsq + (std n u).nF * (β0 * β1) ≤ 0) from not_le.mpr hη)]
  simp only [std]
  rw [calcParallelBiasCutFast_std hn2 ht.ne' (parDen_pos hn2 ht hη.le).ne']
  rfl

theorem calcParallelQ_sound {β0 β1 tsq : ℝ} (hn : 2 ≤ n) (ht : 0 < tsq)
    {st : CutStatus} {p : Params}
    (h : (std n u).calcParallelQ β0 β1 tsq = .ok (st, some p)) {keeps : ℝ → Prop}
    (hk : ∀ t, keeps t → -β1 ≤ t ∧ t ≤ -β0) :
    st = .success ∧ ParamsSound keeps tsq p := by
  have hn2 : (2 : ℝ) ≤ n := by exact_mod_cast hn
  by_cases h0 : β1 < β0
  · unfold calcParallelQ at h; rw [if_pos h0] at h; cases h
  by_cases h1 : β1 > 0 ∧ tsq ≤ β1 * β1
  · unfold calcParallelQ at h; rw [if_neg h0] at h; simp only at h; rw [if_pos h1] at h
    exact calcBiasCutQ_sound hn ht h (fun t ht => (hk t ht).2)
  by_cases h2 : tsq + n * (β0 * β1) ≤ 0
  · unfold calcParallelQ at h; rw [if_neg h0] at h; simp only at h; rw [if_neg h1] at h
    rw [if_pos (show tsq + (std n u).nF * (β0 * β1) ≤ 0 from h2)] at h; cases h
  · rw [calcParallelQ_eq hn (not_lt.mp h0) h1 ht (not_le.mp h2)] at h
    cases h
    exact ⟨rfl, β0, β1, par_slabSound hn2 ht (not_le.mp h2).le, fun t _ h2 => hk t h2⟩

theorem calcSingleOrParallelQ_sound {cut : CutChoice} {tsq : ℝ} (hn : 2 ≤ n) (ht : 0 < tsq)
    {st : CutStatus} {p : Params}
    (h : (std n u).calcSingleOrParallelQ cut tsq = .ok (st, some p)) :
    st = .success ∧ ParamsSound cut.keeps tsq p := by
  match cut with
  | .scalar β =>
    exact calcBiasCutQ_sound hn ht h (fun t h => by simp only [CutChoice.keeps] at h; linarith)
  | .seq [] => simp [calcSingleOrParallelQ, firstOffset] at h
  | .seq [none] => simp [calcSingleOrParallelQ, firstOffset] at h
  | .seq [some β] =>
    simp only [calcSingleOrParallelQ, List.length_singleton, Nat.one_lt_ofNat, true_or, if_true,
      firstOffset, except_ok_bind] at h
    exact calcBiasCutQ_sound hn ht h (fun t h => by simp only [CutChoice.keeps] at h; linarith)
  | .seq (none :: b1 :: l) =>
    simp [calcSingleOrParallelQ, firstOffset] at h
    split_ifs at h
    split at h <;> cases h
  | .seq (some β0 :: none :: l) =>
    simp [calcSingleOrParallelQ, firstOffset] at h
    split_ifs at h
    exact calcBiasCutQ_sound hn ht h (fun t h => by simp only [CutChoice.keeps] at h; linarith)
  | .seq (some β0 :: some β1 :: l) =>
    have hk : ∀ t, (CutChoice.seq (some β0 :: some β1 :: l)).keeps t → -β1 ≤ t ∧ t ≤ -β0 := by
      intro t ht
      simp only [CutChoice.keeps] at ht
      exact ⟨by linarith, by linarith⟩
    simp [calcSingleOrParallelQ, firstOffset] at h
    split_ifs at h
    · exact calcBiasCutQ_sound hn ht h (fun t ht => (hk t ht).2)
    · exact calcParallelQ_sound hn ht h hk

/-! ### Results without parameters -/

theorem bind_some_ne_none {α : Type} {x : Except Fault α} {s0 st : CutStatus} {f : α → Params} :
    (x >>= fun r => (Except.ok (s0, some (f r)) : StrategyResult)) ≠ .ok (st, none) := by
  cases x <;> simp

theorem bind_ok_some {α : Type} {x : Except Fault α} {s0 st : CutStatus} {f : α → Params}
    {p : Params} (h : (x >>= fun r => (Except.ok (s0, some (f r)) : StrategyResult)) = .ok (st, some p)) :
    st = s0 := by
  cases x <;> simp at h; exact h.1.symm

theorem calcBiasCut_some {c : EllCalc} {β tsq : ℝ} {st : CutStatus} {p : Params}
    (h : c.calcBiasCut β tsq = .ok (st, some p)) : st = .success := by
  unfold calcBiasCut at h
  split_ifs at h with h0
  simp only at h
  split_ifs at h with h1
  · cases h
  · rcases hx : psqrt tsq with f | τ
    · rw [hx] at h; cases h
    · rw [hx] at h
      exact bind_ok_some (f := id) h

theorem calcSingleOrParallel_some {c : EllCalc} {cut : CutChoice} {tsq : ℝ} {st : CutStatus}
    {p : Params} (h : c.calcSingleOrParallel cut tsq = .ok (st, some p)) : st = .success := by
  match cut with
  | .scalar β => exact calcBiasCut_some h
  | .seq bs =>
    simp only [calcSingleOrParallel] at h
    split_ifs at h
    · rcases hx : firstOffset bs with f | b
      · rw [hx] at h; cases h
      · rw [hx] at h; exact calcBiasCut_some h
    · split at h
      · rcases hx : firstOffset bs with f | b
        · rw [hx] at h; cases h
        · rw [hx] at h
          simp only [except_ok_bind, calcParallel] at h
          split_ifs at h
          · cases h
          · exact calcBiasCut_some h
          · exact bind_ok_some (f := id) h
      · cases h

theorem calcCentral_some {c : EllCalc} {cut : CutChoice} {tsq : ℝ} {st : CutStatus}
    {p : Params} (h : c.calcSingleOrParallelCentralCut cut tsq = .ok (st, some p)) : st = .success := by
  match cut with
  | .scalar β => exact bind_ok_some (f := c.helper.calcCentralCut) h
  | .seq bs =>
    simp only [calcSingleOrParallelCentralCut] at h
    split_ifs at h
    · exact bind_ok_some (f := c.helper.calcCentralCut) h
    · split at h
      · split_ifs at h
        · cases h
        · exact bind_ok_some (f := c.helper.calcCentralCut) h
        · exact bind_ok_some (f := id) h
      · cases h

theorem calcBiasCutQ_some {c : EllCalc} {β tsq : ℝ} {st : CutStatus} {p : Params}
    (h : c.calcBiasCutQ β tsq = .ok (st, some p)) : st = .success := by
  unfold calcBiasCutQ at h
  rcases hx : psqrt tsq with f | τ
  · rw [hx] at h; cases h
  · rw [hx] at h
    simp only [except_ok_bind] at h
    split_ifs at h
    · cases h
    · cases h
    · exact bind_ok_some (f := id) h

theorem calcSingleOrParallelQ_some {c : EllCalc} {cut : CutChoice} {tsq : ℝ} {st : CutStatus}
    {p : Params} (h : c.calcSingleOrParallelQ cut tsq = .ok (st, some p)) : st = .success := by
  match cut with
  | .scalar β => exact calcBiasCutQ_some h
  | .seq bs =>
    simp only [calcSingleOrParallelQ] at h
    split_ifs at h
    · rcases hx : firstOffset bs with f | b
      · rw [hx] at h; cases h
      · rw [hx] at h; exact calcBiasCutQ_some h
    · split at h
      · rcases hx : firstOffset bs with f | b
        · rw [hx] at h; cases h
        · rw [hx] at h
          simp only [except_ok_bind, calcParallelQ] at h
          split_ifs at h
          · cases h
          · exact calcBiasCutQ_some h
          · cases h
          · exact bind_ok_some (f := id) h
      · cases h

theorem not_keeps_of_sq {β t tsq : ℝ} (h0 : 0 ≤ β) (h : tsq < β * β) (ht : t ^ 2 ≤ tsq)
    (hk : t ≤ -β) : False := by nlinarith

theorem calcBiasCut_none {c : EllCalc} {β tsq : ℝ} {st : CutStatus}
    (h : c.calcBiasCut β tsq = .ok (st, none)) :
    st = .noSoln ∧ ∀ t, t ^ 2 ≤ tsq → ¬ t ≤ -β := by
  unfold calcBiasCut at h
  split_ifs at h with h0
  simp only at h
  split_ifs at h with h1
  · cases h; exact ⟨rfl, fun t h2 h3 => not_keeps_of_sq h0 h1 h2 h3⟩
  · rcases hx : psqrt tsq with f | τ
    · rw [hx] at h; cases h
    · rw [hx] at h
      exact (bind_some_ne_none (f := id) h).elim

theorem calcParallel_none {c : EllCalc} {β0 β1 tsq : ℝ} {st : CutStatus}
    (h : c.calcParallel β0 β1 tsq = .ok (st, none)) :
    st = .noSoln ∧ ∀ t, t ^ 2 ≤ tsq → ¬ (-β1 ≤ t ∧ t ≤ -β0) := by
  unfold calcParallel at h
  split_ifs at h with h0
  · cases h; exact ⟨rfl, fun t _ h => by linarith [h.1, h.2]⟩
  · simp only at h
    split_ifs at h with h1
    · obtain ⟨h2, h3⟩ := calcBiasCut_none h
      exact ⟨h2, fun t ht hk => h3 t ht hk.2⟩
    · exact (bind_some_ne_none (f := id) h).elim

theorem calcSingleOrParallel_none {c : EllCalc} {cut : CutChoice} {tsq : ℝ} {st : CutStatus}
    (h : c.calcSingleOrParallel cut tsq = .ok (st, none)) :
    st = .noSoln ∧ ∀ t, t ^ 2 ≤ tsq → ¬ cut.keeps t := by
  have aux : ∀ β, c.calcBiasCut β tsq = .ok (st, none) → (∀ t, cut.keeps t → t ≤ -β) →
      st = .noSoln ∧ ∀ t, t ^ 2 ≤ tsq → ¬ cut.keeps t := fun β h hk =>
    let h1 := calcBiasCut_none h
    ⟨h1.1, fun t ht h2 => h1.2 t ht (hk t h2)⟩
  match cut with
  | .scalar β => exact aux β h (fun t h => by simp only [CutChoice.keeps] at h; linarith)
  | .seq [] => simp [calcSingleOrParallel, firstOffset] at h
  | .seq [none] => simp [calcSingleOrParallel, firstOffset] at h
  | .seq [some β] =>
    simp only [calcSingleOrParallel, List.length_singleton, Nat.one_lt_ofNat, true_or, if_true,
      firstOffset, except_ok_bind] at h
    exact aux β h (fun t h => by simp only [CutChoice.keeps] at h; linarith)
  | .seq (none :: b1 :: l) =>
    simp [calcSingleOrParallel, firstOffset] at h
    split_ifs at h
    split at h <;> cases h
  | .seq (some β0 :: none :: l) =>
    simp [calcSingleOrParallel, firstOffset] at h
    split_ifs at h
    exact aux β0 h (fun t h => by simp only [CutChoice.keeps] at h; linarith)
  | .seq (some β0 :: some β1 :: l) =>
    have hk : ∀ t, (CutChoice.seq (some β0 :: some β1 :: l)).keeps t → -β1 ≤ t ∧ t ≤ -β0 := by
      intro t ht
      simp only [CutChoice.keeps] at ht
      exact ⟨by linarith, by linarith⟩
    simp [calcSingleOrParallel, firstOffset] at h
    split_ifs at h
    · exact aux β0 h (fun t ht => (hk t ht).2)
    · obtain ⟨h2, h3⟩ := calcParallel_none h
      exact ⟨h2, fun t ht h4 => h3 t ht (hk t h4)⟩

theorem calcCentral_none {c : EllCalc} {cut : CutChoice} {tsq : ℝ} {st : CutStatus}
    (h : c.calcSingleOrParallelCentralCut cut tsq = .ok (st, none)) :
    st = .noSoln ∧ ∀ t, t ^ 2 ≤ tsq → ¬ cut.keepsCentral t := by
  have hc : ∀ (hh : (do
      let tau ← psqrt tsq
      Except.ok (CutStatus.success, some (c.helper.calcCentralCut tau)) : StrategyResult) =
        .ok (st, none)), False := by
    intro hh
    exact bind_some_ne_none (f := c.helper.calcCentralCut) hh
  match cut with
  | .scalar β => exact (hc h).elim
  | .seq bs =>
    simp only [calcSingleOrParallelCentralCut] at h
    split_ifs at h
    · exact (hc h).elim
    · split at h
      · rename_i b1 hb
        split_ifs at h with h1 h2
        · cases h
          refine ⟨rfl, fun t _ hk => ?_⟩
          match bs, hb with
          | _ :: some b :: _, hb =>
            simp at hb
            subst hb
            simp only [CutChoice.keepsCentral] at hk
            linarith [hk.1, hk.2]
        · exact (hc h).elim
        · exact (bind_some_ne_none (f := id) h).elim
      · cases h

theorem calcBiasCutQ_none {c : EllCalc} {β tsq : ℝ} {st : CutStatus}
    (h : c.calcBiasCutQ β tsq = .ok (st, none)) :
    st = .noEffect ∨ (st = .noSoln ∧ ∀ t, t ^ 2 ≤ tsq → ¬ t ≤ -β) := by
  unfold calcBiasCutQ at h
  by_cases h0 : tsq < 0
  · rw [psqrt_neg h0] at h; cases h
  · rw [psqrt_ok (not_lt.mp h0)] at h
    simp only [except_ok_bind] at h
    split_ifs at h with h1 h2
    · cases h
      right
      refine ⟨rfl, fun t h2 h3 => ?_⟩
      have := neg_sqrt_le h2
      linarith
    · cases h; exact Or.inl rfl
    · exact (bind_some_ne_none (f := id) h).elim

theorem calcParallelQ_none {c : EllCalc} {β0 β1 tsq : ℝ} {st : CutStatus}
    (h : c.calcParallelQ β0 β1 tsq = .ok (st, none)) :
    st = .noEffect ∨ (st = .noSoln ∧ ∀ t, t ^ 2 ≤ tsq → ¬ (-β1 ≤ t ∧ t ≤ -β0)) := by
  unfold calcParallelQ at h
  split_ifs at h with h0
  · cases h; exact Or.inr ⟨rfl, fun t _ h => by linarith [h.1, h.2]⟩
  · simp only at h
    split_ifs at h with h1 h2
    · rcases calcBiasCutQ_none h with h2 | ⟨h2, h3⟩
      · exact Or.inl h2
      · exact Or.inr ⟨h2, fun t ht hk => h3 t ht hk.2⟩
    · cases h; exact Or.inl rfl
    · exact (bind_some_ne_none (f := id) h).elim

theorem calcSingleOrParallelQ_none {c : EllCalc} {cut : CutChoice} {tsq : ℝ} {st : CutStatus}
    (h : c.calcSingleOrParallelQ cut tsq = .ok (st, none)) :
    st = .noEffect ∨ (st = .noSoln ∧ ∀ t, t ^ 2 ≤ tsq → ¬ cut.keeps t) := by
  have aux : ∀ β, c.calcBiasCutQ β tsq = .ok (st, none) → (∀ t, cut.keeps t → t ≤ -β) →
      st = .noEffect ∨ (st = .noSoln ∧ ∀ t, t ^ 2 ≤ tsq → ¬ cut.keeps t) := by
    intro β h hk
    rcases calcBiasCutQ_none h with h2 | ⟨h2, h3⟩
    · exact Or.inl h2
    · exact Or.inr ⟨h2, fun t ht h4 => h3 t ht (hk t h4)⟩
  match cut with
  | .scalar β => exact aux β h (fun t h => by simp only [CutChoice.keeps] at h; linarith)
  | .seq [] => simp [calcSingleOrParallelQ, firstOffset] at h
  | .seq [none] => simp [calcSingleOrParallelQ, firstOffset] at h
  | .seq [some β] =>
    simp only [calcSingleOrParallelQ, List.length_singleton, Nat.one_lt_ofNat, true_or, if_true,
      firstOffset, except_ok_bind] at h
    exact aux β h (fun t h => by simp only [CutChoice.keeps] at h; linarith)
  | .seq (none :: b1 :: l) =>
    simp [calcSingleOrParallelQ, firstOffset] at h
    split_ifs at h
    split at h <;> cases h
  | .seq (some β0 :: none :: l) =>
    simp [calcSingleOrParallelQ, firstOffset] at h
    split_ifs at h
    exact aux β0 h (fun t h => by simp only [CutChoice.keeps] at h; linarith)
  | .seq (some β0 :: some β1 :: l) =>
    have hk : ∀ t, (CutChoice.seq (some β0 :: some β1 :: l)).keeps t → -β1 ≤ t ∧ t ≤ -β0 := by
      intro t ht
      simp only [CutChoice.keeps] at ht
      exact ⟨by linarith, by linarith⟩
    simp [calcSingleOrParallelQ, firstOffset] at h
    split_ifs at h
    · exact aux β0 h (fun t ht => (hk t ht).2)
    · rcases calcParallelQ_none h with h2 | ⟨h2, h3⟩
      · exact Or.inl h2
      · exact Or.inr ⟨h2, fun t ht h4 => h3 t ht (hk t h4)⟩

end EllCalc

namespace Ell

variable {n : ℕ}

theorem Built.helper_eq {e : Ell n} (h : e.Built) :
    2 ≤ n ∧ e.helper = EllCalc.std n e.helper.useParallelCut := by
  obtain ⟨c, h1, h2⟩ := h
  obtain ⟨h3, h4⟩ := EllCalc.init_eq h1
  refine ⟨by exact_mod_cast h3, ?_⟩
  rw [h4] at h2
  rw [h2]; simp [EllCalc.std]

/-- `gᵀMg`. -/
def omega (e : Ell n) (g : Vec n) : ℝ := g ⬝ᵥ (e.mq *ᵥ g)

/-- State after a successful cut with parameters `p`. -/
noncomputable def applied (e : Ell n) (g : Vec n) (p : Params) : Ell n :=
  let M := e.mq - (p.sigma / e.omega g) • vecMulVec (e.mq *ᵥ g) (e.mq *ᵥ g)
  let κ := e.kappa * p.delta
  { e with
    tsq := e.kappa * e.omega g
    xc := e.xc - (p.rho / e.omega g) • (e.mq *ᵥ g)
    mq := if e.noDeferTrick then κ • M else M
    kappa := if e.noDeferTrick then 1 else κ }

theorem updateCore_zero (e : Ell n) (β : CutChoice) (s : Strategy) :
    e.updateCore (0, β) s = (e, .error .valueError) := by
  unfold updateCore; simp

theorem updateCore_eq {e : Ell n} {g : Vec n} (hg : g ≠ 0) (hω : e.omega g ≠ 0) (β : CutChoice)
    (s : Strategy) :
    e.updateCore (g, β) s =
      match s β (e.kappa * e.omega g) with
      | .error f => ({ e with tsq := e.kappa * e.omega g }, .error f)
      | .ok (st, none) => ({ e with tsq := e.kappa * e.omega g }, .ok st)
      | .ok (st, some p) => (e.applied g p, .ok st) := by
  have hg' : ¬ ∀ i, g i = 0 := fun h => hg (funext h)
  have hω' : ¬ (g ⬝ᵥ (e.mq *ᵥ g) = 0) := hω
  unfold updateCore
  simp only [if_neg hg', if_neg hω']
  show (match s β (e.kappa * e.omega g) with
    | .error f => _ | .ok (status, none) => _ | .ok (status, some p) => _) = _
  rcases s β (e.kappa * e.omega g) with f | ⟨st, _ | p⟩
  · rfl
  · rfl
  · simp only [applied]
    cases e.noDeferTrick <;> rfl

theorem updateCore_some {e : Ell n} {g : Vec n} (hg : g ≠ 0) (hω : e.omega g ≠ 0) {β : CutChoice}
    {s : Strategy} {st : CutStatus} {p : Params}
    (hs : s β (e.kappa * e.omega g) = .ok (st, some p)) :
    e.updateCore (g, β) s = (e.applied g p, .ok st) := by
  rw [updateCore_eq hg hω, hs]

theorem updateCore_none {e : Ell n} {g : Vec n} (hg : g ≠ 0) (hω : e.omega g ≠ 0) {β : CutChoice}
    {s : Strategy} {st : CutStatus} (hs : s β (e.kappa * e.omega g) = .ok (st, none)) :
    e.updateCore (g, β) s = ({ e with tsq := e.kappa * e.omega g }, .ok st) := by
  rw [updateCore_eq hg hω, hs]

theorem updateCore_error {e : Ell n} {g : Vec n} (hg : g ≠ 0) (hω : e.omega g ≠ 0) {β : CutChoice}
    {s : Strategy} {f : Fault} (hs : s β (e.kappa * e.omega g) = .error f) :
    e.updateCore (g, β) s = ({ e with tsq := e.kappa * e.omega g }, .error f) := by
  rw [updateCore_eq hg hω, hs]

theorem WF.omega_pos {e : Ell n} (he : e.WF) {g : Vec n} (hg : g ≠ 0) : 0 < e.omega g :=
  PosDef.quad_pos he.posDef hg

theorem WF.region_eq_hull {e : Ell n} (he : e.WF) : e.region = e.hull :=
  (supportSet_eq_ellipsoid he.posDef he.kappa_pos.le _).symm

theorem supportSet_smul (M : Mat n) (k κ : ℝ) (c : Vec n) :
    supportSet (k • M) κ c = supportSet M (κ * k) c := by
  ext x; simp only [supportSet, Set.mem_ofPred_eq, smul_mulVec, dotProduct_smul, smul_eq_mul,
    mul_assoc]

theorem applied_hull (e : Ell n) (g : Vec n) (p : Params) :
    (e.applied g p).hull =
      supportSet (e.mq - (p.sigma / e.omega g) • vecMulVec (e.mq *ᵥ g) (e.mq *ᵥ g))
        (e.kappa * p.delta) (e.xc - (p.rho / e.omega g) • (e.mq *ᵥ g)) := by
  unfold hull applied
  cases e.noDeferTrick
  · simp
  · simp only [if_true]
    rw [supportSet_smul, one_mul]

theorem applied_built {e : Ell n} (g : Vec n) (p : Params) (h : e.Built) : (e.applied g p).Built := h

theorem applied_WF {e : Ell n} (he : e.WF) {g : Vec n} (hg : g ≠ 0) {p : Params}
    (hσ : p.sigma < 1) (hδ : 0 < p.delta) : (e.applied g p).WF := by
  have h1 := posDef_update he.posDef (he.omega_pos hg) hσ
  have h2 : 0 < e.kappa * p.delta := mul_pos he.kappa_pos hδ
  refine ⟨he.built, ?_, ?_⟩
  · unfold applied
    cases e.noDeferTrick
    · exact h1
    · exact h1.smul h2
  · unfold applied
    cases e.noDeferTrick
    · exact h2
    · exact one_pos

/-- Points kept by the cut survive the update. -/
theorem applied_contains {e : Ell n} (he : e.WF) {g : Vec n} (hg : g ≠ 0) {keeps : ℝ → Prop}
    {p : Params} (hp : EllCalc.ParamsSound keeps (e.kappa * e.omega g) p) {x : Vec n}
    (hx : x ∈ e.region) (hk : keeps (g ⬝ᵥ (x - e.xc))) : x ∈ (e.applied g p).hull := by
  rw [he.region_eq_hull] at hx
  obtain ⟨b0, b1, hs, hb⟩ := hp
  rw [applied_hull]
  have ht : (g ⬝ᵥ (x - e.xc)) ^ 2 ≤ e.kappa * e.omega g := hx g
  obtain ⟨h1, h2⟩ := hb _ ht hk
  exact slab_update_support he.posDef.posSemidef he.kappa_pos (he.omega_pos hg) hs hx
    ⟨by linarith, by linarith⟩

/-- Inversion of a call that returns normally. -/
theorem updateCore_inv {e : Ell n} (he : e.WF) {cut : Cut n} {s : Strategy} {e' : Ell n}
    {st : CutStatus} (h : e.updateCore cut s = (e', .ok st)) :
    cut.1 ≠ 0 ∧ 0 < e.kappa * e.omega cut.1 ∧
    ((∃ p, s cut.2 (e.kappa * e.omega cut.1) = .ok (st, some p) ∧ e' = e.applied cut.1 p) ∨
      (s cut.2 (e.kappa * e.omega cut.1) = .ok (st, none) ∧
        e' = { e with tsq := e.kappa * e.omega cut.1 })) := by
  obtain ⟨g, β⟩ := cut
  by_cases hg : g = 0
  · subst hg; rw [updateCore_zero] at h; cases h
  have hω := he.omega_pos hg
  refine ⟨hg, mul_pos he.kappa_pos hω, ?_⟩
  rw [updateCore_eq hg hω.ne'] at h
  simp only
  revert h
  rcases s β (e.kappa * e.omega g) with f | ⟨st', _ | p⟩ <;> intro h
  · cases h
  · cases h; exact Or.inr ⟨rfl, rfl⟩
  · cases h; exact Or.inl ⟨p, rfl, rfl⟩

theorem sq_le_tsq {e : Ell n} (he : e.WF) {x : Vec n} (hx : x ∈ e.region) (g : Vec n) :
    (g ⬝ᵥ (x - e.xc)) ^ 2 ≤ e.kappa * e.omega g := by
  rw [he.region_eq_hull] at hx; exact hx g

/-- If the cut keeps two points of the region that it can tell apart, the object stays legitimate. -/
theorem applied_WF_of_width {e : Ell n} (he : e.WF) {g : Vec n} (hg : g ≠ 0) {keeps : ℝ → Prop}
    {p : Params} (hp : EllCalc.ParamsSound keeps (e.kappa * e.omega g) p) {x y : Vec n}
    (hx : x ∈ e.region) (hy : y ∈ e.region) (hkx : keeps (g ⬝ᵥ (x - e.xc)))
    (hky : keeps (g ⬝ᵥ (y - e.xc))) (hne : g ⬝ᵥ x ≠ g ⬝ᵥ y) : (e.applied g p).WF := by
  obtain ⟨b0, b1, hs, hb⟩ := hp
  have hx2 := sq_le_tsq he hx g
  have hy2 := sq_le_tsq he hy g
  obtain ⟨h1, h2⟩ := hb _ hx2 hkx
  obtain ⟨h3, h4⟩ := hb _ hy2 hky
  have hne' : g ⬝ᵥ (x - e.xc) ≠ g ⬝ᵥ (y - e.xc) := by
    rw [dotProduct_sub, dotProduct_sub]; intro h; apply hne; linarith
  have : p.sigma < 1 ∧ 0 < p.delta := by
    rcases lt_or_gt_of_ne hne' with h | h
    · exact hs.strict h hx2 hy2 h1 h4
    · exact hs.strict h hy2 hx2 h3 h2
  exact applied_WF he hg this.1 this.2

end Ell

end Ellalgo
