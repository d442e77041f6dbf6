import Verif.Props.EllState
import Verif.Lemmas.Rename
import Verif.Model.EllSpace

/-! # C80: the search does not depend on the coordinate system -/

namespace Ellalgo

open Matrix Spec CuttingPlane

variable {n : ℕ} {O G : Type*}

namespace Spec

/-- The same ellipsoid in the coordinates `y = T x + b`. -/
def recoord (T : Mat n) (b : Vec n) (e : Ell n) : Ell n := { e with mq := T * e.mq * Tᵀ, xc := T *ᵥ e.xc + b }

/-- The same point. -/
def recoordPt (T : Mat n) (b : Vec n) (x : Vec n) : Vec n := T *ᵥ x + b

/-- The same cut: the gradient becomes `T⁻ᵀ g`, the offsets stay. -/
noncomputable def recoordCut (T : Mat n) (c : Cut n) : Cut n := (T⁻¹ᵀ *ᵥ c.1, c.2)

/-- The same feasibility oracle: it is asked in the new coordinates and answers in them. -/
noncomputable def recoordFeas (T : Mat n) (b : Vec n) (omega : OracleFeas O (Vec n) (Cut n)) : OracleFeas O (Vec n) (Cut n) := fun o y =>
  ((omega o (T⁻¹ *ᵥ (y - b))).1, (omega o (T⁻¹ *ᵥ (y - b))).2.map (Option.map (recoordCut T)))

/-- The same optimisation oracle. -/
noncomputable def recoordOptim (T : Mat n) (b : Vec n) (omega : OracleOptim O (Vec n) (Cut n) G) : OracleOptim O (Vec n) (Cut n) G :=
  fun o y γ => ((omega o (T⁻¹ *ᵥ (y - b)) γ).1, (omega o (T⁻¹ *ᵥ (y - b)) γ).2.map (Prod.map (recoordCut T) id))

/-- The same discrete oracle. -/
noncomputable def recoordOptimQ (T : Mat n) (b : Vec n) (omega : OracleOptimQ O (Vec n) (Cut n) G) : OracleOptimQ O (Vec n) (Cut n) G :=
  fun o y γ r => ((omega o (T⁻¹ *ᵥ (y - b)) γ r).1,
    (omega o (T⁻¹ *ᵥ (y - b)) γ r).2.map fun a => ⟨recoordCut T a.cut, recoordPt T b a.xq, a.gamma1, a.moreAlt⟩)

end Spec

variable {T : Mat n}

theorem recoord_inv (hT : IsUnit T.det) (b x : Vec n) : T⁻¹ *ᵥ (recoordPt T b x - b) = x := by
  unfold recoordPt
  rw [add_sub_cancel_right, mulVec_mulVec, nonsing_inv_mul T hT, one_mulVec]

theorem transpose_mulVec_recoord (hT : IsUnit T.det) (g : Vec n) : Tᵀ *ᵥ (T⁻¹ᵀ *ᵥ g) = g := by
  rw [mulVec_mulVec, ← transpose_mul, nonsing_inv_mul T hT, transpose_one, one_mulVec]

theorem recoord_updateCore (hT : IsUnit T.det) (b : Vec n) (e : Ell n) (cut : Cut n) (s : Strategy) :
    (recoord T b e).updateCore (recoordCut T cut) s = (recoord T b (e.updateCore cut s).1, (e.updateCore cut s).2) := by
  obtain ⟨g, β⟩ := cut
  have hz : (∀ i, (T⁻¹ᵀ *ᵥ g) i = 0) ↔ ∀ i, g i = 0 := by
    constructor
    · intro h i
      have h1 : T⁻¹ᵀ *ᵥ g = 0 := funext h
      have h2 := transpose_mulVec_recoord hT g
      rw [h1, mulVec_zero] at h2
      rw [← h2]; rfl
    · intro h i
      have h1 : g = 0 := funext h
      rw [h1, mulVec_zero]; rfl
  have hM : (T * e.mq * Tᵀ) *ᵥ (T⁻¹ᵀ *ᵥ g) = T *ᵥ (e.mq *ᵥ g) := by
    rw [← mulVec_mulVec, transpose_mulVec_recoord hT, ← mulVec_mulVec]
  have ho : (T⁻¹ᵀ *ᵥ g) ⬝ᵥ (T *ᵥ (e.mq *ᵥ g)) = g ⬝ᵥ (e.mq *ᵥ g) := by
    rw [dotProduct_mulVec, ← mulVec_transpose, transpose_mulVec_recoord hT]
  have hv : vecMulVec (T *ᵥ (e.mq *ᵥ g)) (T *ᵥ (e.mq *ᵥ g)) = T * vecMulVec (e.mq *ᵥ g) (e.mq *ᵥ g) * Tᵀ := by
    rw [mul_vecMulVec, vecMulVec_mul, vecMul_transpose]
  unfold Ell.updateCore recoord recoordCut
  simp only [hz, hM, ho]
  by_cases h1 : ∀ i, g i = 0
  · simp only [if_pos h1]
  simp only [if_neg h1]
  by_cases h2 : g ⬝ᵥ (e.mq *ᵥ g) = 0
  · simp only [if_pos h2]
  simp only [if_neg h2]
  rcases s β (e.kappa * g ⬝ᵥ e.mq *ᵥ g) with f | ⟨st, _ | p⟩
  · rfl
  · rfl
  · simp only [hv]
    rcases hd : e.noDeferTrick
    · simp only [Bool.false_eq_true, if_false, Prod.mk.injEq, Ell.mk.injEq, and_true]
      constructor
      · rw [Matrix.mul_sub, Matrix.sub_mul, Matrix.mul_smul, Matrix.smul_mul]
      · rw [mulVec_sub, mulVec_smul]; abel
    · simp only [if_true, Prod.mk.injEq, Ell.mk.injEq, and_true]
      constructor
      · rw [Matrix.mul_smul, Matrix.smul_mul, Matrix.mul_sub, Matrix.sub_mul, Matrix.mul_smul, Matrix.smul_mul]
      · rw [mulVec_sub, mulVec_smul]; abel

/-- **C80, one call.** In coordinates `y = T x + b` (`T` invertible) every update does the same thing: same status or exception, same `tsq`, and the resulting ellipsoid is the same set. -/
theorem C80_update_affine (hT : IsUnit T.det) (b : Vec n) (e : Ell n) (m : Method) (cut : Cut n) :
    (recoord T b e).update m (recoordCut T cut) = (recoord T b (e.update m cut).1, (e.update m cut).2) := by
  cases m <;> exact recoord_updateCore hT b e cut _

theorem recoord_renames (hT : IsUnit T.det) (b : Vec n) :
    Renames (Ell.space n) (Ell.space n) (recoord T b) (recoordPt T b) (recoordCut T) where
  xc _ := rfl
  tsq _ := rfl
  setXc _ _ := rfl
  bias e c := recoord_updateCore hT b e c _
  central e c := recoord_updateCore hT b e c _
  q e c := recoord_updateCore hT b e c _

/-- The renamed object stands for the image of the ellipsoid. -/
theorem C80_region (hT : IsUnit T.det) (b : Vec n) (e : Ell n) : (recoord T b e).region = recoordPt T b '' e.region := by
  have key : ∀ x, recoordPt T b x ∈ (recoord T b e).region ↔ x ∈ e.region := by
    intro x
    show (recoordPt T b x - (T *ᵥ e.xc + b)) ⬝ᵥ ((T * e.mq * Tᵀ)⁻¹ *ᵥ (recoordPt T b x - (T *ᵥ e.xc + b))) ≤ e.kappa ↔
      (x - e.xc) ⬝ᵥ (e.mq⁻¹ *ᵥ (x - e.xc)) ≤ e.kappa
    have h1 : recoordPt T b x - (T *ᵥ e.xc + b) = T *ᵥ (x - e.xc) := by
      unfold recoordPt; rw [mulVec_sub]; abel
    rw [h1, Matrix.mul_inv_rev, Matrix.mul_inv_rev, ← mulVec_mulVec, ← mulVec_mulVec, mulVec_mulVec _ T⁻¹, nonsing_inv_mul T hT, one_mulVec,
      dotProduct_comm, dotProduct_mulVec, ← mulVec_transpose, ← transpose_nonsing_inv, transpose_mulVec_recoord hT, dotProduct_comm]
  ext y
  constructor
  · intro hy
    refine ⟨T⁻¹ *ᵥ (y - b), ?_, ?_⟩
    · rw [← key]; unfold recoordPt; rw [mulVec_mulVec, mul_nonsing_inv T hT, one_mulVec, sub_add_cancel]; exact hy
    · unfold recoordPt; rw [mulVec_mulVec, mul_nonsing_inv T hT, one_mulVec, sub_add_cancel]
  · rintro ⟨x, hx, rfl⟩
    exact (key x).mpr hx

theorem recoordFeas_renames (hT : IsUnit T.det) (b : Vec n) (omega : OracleFeas O (Vec n) (Cut n)) (o : O) (x : Vec n) :
    recoordFeas T b omega o (recoordPt T b x) = ((omega o x).1, (omega o x).2.map (Option.map (recoordCut T))) := by
  unfold recoordFeas; rw [recoord_inv hT]

/-- **C80, `cutting_plane_feas`.** Posed in the coordinates `y = T x + b`, a problem takes the same course: same number of iterations, same outcome, and the returned point is the same one. -/
theorem C80_feas_affine (hT : IsUnit T.det) (b : Vec n) (omega : OracleFeas O (Vec n) (Cut n)) (o : O) (e : Ell n) (opts : Options ℝ) :
    feas (recoordFeas T b omega) (Ell.space n) ltReal o (recoord T b e) opts =
      let r := feas omega (Ell.space n) ltReal o e opts
      (r.1, recoord T b r.2.1, r.2.2.map fun p => (p.1.map (recoordPt T b), p.2)) :=
  (recoord_renames hT b).feasLoop (recoordFeas_renames hT b omega) _ _ _ _ _ _

/-- **C80, `cutting_plane_optim`.** -/
theorem C80_optim_affine (hT : IsUnit T.det) (b : Vec n) (omega : OracleOptim O (Vec n) (Cut n) G) (o : O) (e : Ell n) (γ : G)
    (opts : Options ℝ) :
    optim (recoordOptim T b omega) (Ell.space n) ltReal o (recoord T b e) γ opts =
      let r := optim omega (Ell.space n) ltReal o e γ opts
      (r.1, recoord T b r.2.1, r.2.2.map fun p => (p.1.map (recoordPt T b), p.2)) :=
  (recoord_renames hT b).optimLoop (fun o x γ => by unfold recoordOptim; rw [recoord_inv hT]) _ _ _ _ _ _ _ none

/-- **C80, `cutting_plane_optim_q`.** -/
theorem C80_optim_q_affine (hT : IsUnit T.det) (b : Vec n) (omega : OracleOptimQ O (Vec n) (Cut n) G) (o : O) (e : Ell n) (γ : G)
    (opts : Options ℝ) :
    optimQ (recoordOptimQ T b omega) (Ell.space n) ltReal o (recoord T b e) γ opts =
      let r := optimQ omega (Ell.space n) ltReal o e γ opts
      (r.1, recoord T b r.2.1, r.2.2.map fun p => (p.1.map (recoordPt T b), p.2)) :=
  (recoord_renames hT b).optimQLoop (fun o x γ r => by unfold recoordOptimQ; rw [recoord_inv hT]; rfl) _ _ _ _ _ _ _ none _

/-- **C80, `bsearch` with `BSearchAdaptor`.** -/
theorem C80_bsearch_affine {D : Type*} (hT : IsUnit T.det) (b : Vec n) (omega : OracleFeas O (Vec n) (Cut n)) (upd : O → G → O) (o : O) (e : Ell n)
    (opts : Options ℝ) (num : BSNum G D) (intrvl : G × G) (maxIters : ℕ) :
    bsearch (assessBS (recoordFeas T b omega) upd (Ell.space n) ltReal opts) num (o, recoord T b e) intrvl maxIters =
      let r := bsearch (assessBS omega upd (Ell.space n) ltReal opts) num (o, e) intrvl maxIters
      ((r.1.1, recoord T b r.1.2), r.2) :=
  bsearchLoop_rename (fun p : O × Ell n => (p.1, recoord T b p.2))
    (fun p γ => (recoord_renames hT b).assessBS (recoordFeas_renames hT b omega) upd ltReal opts p.1 p.2 γ) num _ _ (o, e) _ _

/-- A shear with a translation. -/
example : IsUnit (!![1, 2; 0, 3] : Mat 2).det ∧ recoordPt !![1, 2; 0, 3] ![5, 0] ![1, 1] = ![8, 3] ∧
    recoordCut !![1, 2; 0, 3] (![1, 5], .scalar 2) = (![1, 1], .scalar 2) := by
  have hd : (!![1, 2; 0, 3] : Mat 2).det = 3 := by rw [det_fin_two_of]; norm_num
  have hu : IsUnit (!![1, 2; 0, 3] : Mat 2).det := by rw [hd]; norm_num
  refine ⟨hu, ?_, ?_⟩
  · ext i; fin_cases i <;> norm_num [recoordPt]
  · unfold recoordCut
    have h := transpose_mulVec_recoord hu ![1, 5]
    have h0 := congrFun h 0
    have h1 := congrFun h 1
    simp [mulVec, dotProduct, Fin.sum_univ_two] at h0 h1
    rw [Prod.mk.injEq]
    refine ⟨?_, rfl⟩
    ext i
    fin_cases i <;> simp [mulVec, dotProduct, Fin.sum_univ_two] <;> linarith

end Ellalgo
