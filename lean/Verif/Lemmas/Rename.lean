import Verif.Model.CuttingPlane

/-! The loops commute with a change of coordinates: points, cuts and search spaces are renamed, everything else stays. -/

namespace Ellalgo

namespace CuttingPlane

variable {O SA SB X Y CA CB G D T : Type*}

/-- `φ` renames search spaces, `ψ` points, `χ` cuts. -/
structure Renames (A : SearchSpace SA X CA T) (B : SearchSpace SB Y CB T) (φ : SA → SB) (ψ : X → Y) (χ : CA → CB) : Prop where
  xc : ∀ s, B.xc (φ s) = ψ (A.xc s)
  tsq : ∀ s, B.tsq (φ s) = A.tsq s
  setXc : ∀ s x, B.setXc (φ s) (ψ x) = φ (A.setXc s x)
  bias : ∀ s c, B.updateBiasCut (φ s) (χ c) = (φ (A.updateBiasCut s c).1, (A.updateBiasCut s c).2)
  central : ∀ s c, B.updateCentralCut (φ s) (χ c) = (φ (A.updateCentralCut s c).1, (A.updateCentralCut s c).2)
  q : ∀ s c, B.updateQ (φ s) (χ c) = (φ (A.updateQ s c).1, (A.updateQ s c).2)

variable {A : SearchSpace SA X CA T} {B : SearchSpace SB Y CB T} {φ : SA → SB} {ψ : X → Y} {χ : CA → CB}

theorem Renames.feasLoop (h : Renames A B φ ψ χ) {omA : OracleFeas O X CA} {omB : OracleFeas O Y CB}
    (hω : ∀ o x, omB o (ψ x) = ((omA o x).1, (omA o x).2.map (Option.map χ))) (lt : T → T → Bool) (tol : T) (fuel k : ℕ) (o : O) (s : SA) :
    CuttingPlane.feasLoop omB B lt tol fuel k o (φ s) =
      ((CuttingPlane.feasLoop omA A lt tol fuel k o s).1, φ (CuttingPlane.feasLoop omA A lt tol fuel k o s).2.1,
        (CuttingPlane.feasLoop omA A lt tol fuel k o s).2.2.map (Prod.map (Option.map ψ) id)) := by
  induction fuel generalizing k o s with
  | zero => rfl
  | succ fuel ih =>
    unfold CuttingPlane.feasLoop
    rw [h.xc, hω]
    rcases omA o (A.xc s) with ⟨o1, f | _ | cut⟩
    · rfl
    · rfl
    · simp only [Except.map, Option.map_some]
      rw [h.bias]
      rcases A.updateBiasCut s cut with ⟨s1, f | st⟩
      · rfl
      · simp only [h.tsq]
        split_ifs
        · rfl
        · rw [ih]; rfl

theorem Renames.optimLoop (h : Renames A B φ ψ χ) {omA : OracleOptim O X CA G} {omB : OracleOptim O Y CB G}
    (hω : ∀ o x γ, omB o (ψ x) γ = ((omA o x γ).1, (omA o x γ).2.map (Prod.map χ id))) (lt : T → T → Bool) (tol : T)
    (fuel k : ℕ) (o : O) (s : SA) (γ : G) (xb : Option X) :
    CuttingPlane.optimLoop omB B lt tol fuel k o (φ s) γ (xb.map ψ) =
      ((CuttingPlane.optimLoop omA A lt tol fuel k o s γ xb).1, φ (CuttingPlane.optimLoop omA A lt tol fuel k o s γ xb).2.1,
        (CuttingPlane.optimLoop omA A lt tol fuel k o s γ xb).2.2.map (Prod.map (Option.map ψ) id)) := by
  induction fuel generalizing k o s γ xb with
  | zero => rfl
  | succ fuel ih =>
    unfold CuttingPlane.optimLoop
    rw [h.xc, hω]
    rcases omA o (A.xc s) γ with ⟨o1, f | ⟨cut, _ | γ1⟩⟩
    · rfl
    · simp only [Except.map, Prod.map, id]
      rw [h.bias]
      rcases A.updateBiasCut s cut with ⟨s1, f | st⟩
      · rfl
      · simp only [h.tsq]
        split_ifs
        · rfl
        · rw [ih]; rfl
    · simp only [Except.map, Prod.map, id]
      rw [h.central]
      rcases A.updateCentralCut s cut with ⟨s1, f | st⟩
      · rfl
      · simp only [h.tsq]
        split_ifs
        · rfl
        · rw [show (some (ψ (A.xc s)) : Option Y) = (some (A.xc s)).map ψ from rfl, ih]; rfl

/-- Renaming of the answers of `assess_optim_q`. -/
def AnswerQ.rename (ψ : X → Y) (χ : CA → CB) (a : AnswerQ X CA G) : AnswerQ Y CB G := ⟨χ a.cut, ψ a.xq, a.gamma1, a.moreAlt⟩

theorem Renames.optimQLoop (h : Renames A B φ ψ χ) {omA : OracleOptimQ O X CA G} {omB : OracleOptimQ O Y CB G}
    (hω : ∀ o x γ r, omB o (ψ x) γ r = ((omA o x γ r).1, (omA o x γ r).2.map (AnswerQ.rename ψ χ))) (lt : T → T → Bool) (tol : T)
    (fuel k : ℕ) (o : O) (s : SA) (γ : G) (xb : Option X) (r : Bool) :
    CuttingPlane.optimQLoop omB B lt tol fuel k o (φ s) γ (xb.map ψ) r =
      ((CuttingPlane.optimQLoop omA A lt tol fuel k o s γ xb r).1, φ (CuttingPlane.optimQLoop omA A lt tol fuel k o s γ xb r).2.1,
        (CuttingPlane.optimQLoop omA A lt tol fuel k o s γ xb r).2.2.map (Prod.map (Option.map ψ) id)) := by
  induction fuel generalizing k o s γ xb r with
  | zero => rfl
  | succ fuel ih =>
    unfold CuttingPlane.optimQLoop
    rw [h.xc, hω]
    rcases omA o (A.xc s) γ r with ⟨o1, f | ⟨cut, xq, g1, more⟩⟩
    · rfl
    · simp only [Except.map, AnswerQ.rename]
      rw [h.q]
      have hx : (if g1.isSome = true then some (ψ xq) else Option.map ψ xb) =
          (if g1.isSome = true then some xq else xb).map ψ := by split_ifs <;> rfl
      rw [hx]
      rcases A.updateQ s cut with ⟨s1, f | st⟩
      · rfl
      · simp only [h.tsq]
        have next : ∀ r', (if lt (A.tsq s1) tol = true then (o1, φ s1, Except.ok ((if g1.isSome = true then some xq else xb).map ψ, g1.getD γ, k))
            else CuttingPlane.optimQLoop omB B lt tol fuel (k + 1) o1 (φ s1) (g1.getD γ) ((if g1.isSome = true then some xq else xb).map ψ) r') =
            let R := (if lt (A.tsq s1) tol = true then (o1, s1, Except.ok (if g1.isSome = true then some xq else xb, g1.getD γ, k))
            else CuttingPlane.optimQLoop omA A lt tol fuel (k + 1) o1 s1 (g1.getD γ) (if g1.isSome = true then some xq else xb) r')
            (R.1, φ R.2.1, R.2.2.map (Prod.map (Option.map ψ) id)) := by
          intro r'
          split_ifs
          all_goals first | rfl | (rw [ih])
        cases st with
        | success => exact next false
        | noSoln => rfl
        | noEffect =>
          simp only
          cases more
          · rfl
          · simp only [Bool.true_eq_false, if_false]; exact next true
        | unknown => exact next r

theorem Renames.assessBS (h : Renames A B φ ψ χ) {omA : OracleFeas O X CA} {omB : OracleFeas O Y CB}
    (hω : ∀ o x, omB o (ψ x) = ((omA o x).1, (omA o x).2.map (Option.map χ))) (upd : O → G → O) (lt : T → T → Bool) (opts : Options T)
    (o : O) (s : SA) (γ : G) :
    CuttingPlane.assessBS omB upd B lt opts (o, φ s) γ =
      (((CuttingPlane.assessBS omA upd A lt opts (o, s) γ).1.1, φ (CuttingPlane.assessBS omA upd A lt opts (o, s) γ).1.2),
        (CuttingPlane.assessBS omA upd A lt opts (o, s) γ).2) := by
  unfold CuttingPlane.assessBS feas
  simp only [h.feasLoop hω]
  rcases CuttingPlane.feasLoop omA A lt opts.tolerance opts.maxIters 0 (upd o γ) s with ⟨o1, s1, f | ⟨_ | x, k⟩⟩
  · rfl
  · rfl
  · simp only [Except.map, Prod.map, Option.map_some, h.setXc]

/-- `bsearch` does not see a renaming of the state of its oracle. -/
theorem bsearchLoop_rename {P Q : Type*} (φ : P → Q) {omA : OracleBS P G} {omB : OracleBS Q G}
    (hω : ∀ p γ, omB (φ p) γ = (φ (omA p γ).1, (omA p γ).2)) (num : BSNum G D) (fuel k : ℕ) (p : P) (lo up : G) :
    bsearchLoop omB num fuel k (φ p) lo up =
      (φ (bsearchLoop omA num fuel k p lo up).1, (bsearchLoop omA num fuel k p lo up).2) := by
  induction fuel generalizing k p lo up with
  | zero => rfl
  | succ fuel ih =>
    unfold bsearchLoop
    simp only [hω]
    split_ifs
    · rfl
    · rcases omA p (num.mid lo (num.tau lo up)) with ⟨p1, f | b⟩
      · rfl
      · cases b <;> simp only [ih]

end CuttingPlane

end Ellalgo
