import Verif.Props.Loops

/-! # Two search spaces in lockstep under the cutting-plane loops -/

namespace Ellalgo

open CuttingPlane

variable {O SA SB X C G T : Type*}

/-- One update on both spaces: either `A` divides by zero where `B` goes `bad`, or both answer the same and, unless they raised, stay related. -/
def Lockstep (R : SA → SB → Prop) (bad : SB → Prop) (ua : SA × Except Fault CutStatus) (ub : SB × Except Fault CutStatus) : Prop :=
  (ua.2 = .error .zeroDivision ∧ bad ub.1) ∨ (ua.2 = ub.2 ∧ ∀ st, ub.2 = .ok st → R ua.1 ub.1)

theorem feasLoop_sim {A : SearchSpace SA X C T} {B : SearchSpace SB X C T} {R : SA → SB → Prop} {bad : SB → Prop}
    (hx : ∀ a b, R a b → A.xc a = B.xc b) (ht : ∀ a b, R a b → A.tsq a = B.tsq b) {omega : OracleFeas O X C} {I : O → Prop}
    (hI : ∀ o x, I o → I (omega o x).1)
    (hu : ∀ o o' a b cut, I o → R a b → omega o (B.xc b) = (o', .ok (some cut)) →
      Lockstep R bad (A.updateBiasCut a cut) (B.updateBiasCut b cut)) (lt : T → T → Bool) (tol : T) {o : O} {b : SB} :
    ∀ (fuel k : ℕ) {l : List (X × C)} {o1 : O} {a1 : SA} {b1 : SB}, I o1 → R a1 b1 →
      FeasTrace omega B lt tol o b l o1 b1 →
      ((feasLoop omega A lt tol fuel k o1 a1).2.2 = .error .zeroDivision ∧
        ∃ l o1 b1 o2 cut, FeasTrace omega B lt tol o b l o1 b1 ∧ omega o1 (B.xc b1) = (o2, .ok (some cut)) ∧
          bad (B.updateBiasCut b1 cut).1) ∨
      ((feasLoop omega A lt tol fuel k o1 a1).1 = (feasLoop omega B lt tol fuel k o1 b1).1 ∧
        (feasLoop omega A lt tol fuel k o1 a1).2.2 = (feasLoop omega B lt tol fuel k o1 b1).2.2) := by
  intro fuel
  induction fuel with
  | zero => intros; exact .inr ⟨rfl, rfl⟩
  | succ fuel ih =>
    intro k l o1 a1 b1 hi hR htr
    have hxab := hx _ _ hR
    have hi1 := hI o1 (B.xc b1) hi
    unfold feasLoop
    rw [hxab]
    rcases ho : omega o1 (B.xc b1) with ⟨o2, f | _ | cut⟩
    · exact .inr ⟨rfl, rfl⟩
    · exact .inr ⟨rfl, rfl⟩
    · rw [ho] at hi1
      have hstep := hu _ _ _ _ _ hi hR ho
      rcases ha : A.updateBiasCut a1 cut with ⟨a2, ra⟩
      rcases hb : B.updateBiasCut b1 cut with ⟨b2, rb⟩
      rw [ha, hb] at hstep
      rcases hstep with ⟨h1, h2⟩ | ⟨h1, h2⟩
      · simp only at h1 h2
        subst h1
        refine .inl ⟨?_, l, o1, b1, o2, cut, htr, ho, by rw [hb]; exact h2⟩
        simp only [ha]
      · simp only at h1 h2
        subst h1
        rcases ra with f | st
        · simp only [ha, hb]; exact .inr ⟨trivial, trivial⟩
        · have hR2 := h2 st rfl
          have ht2 := ht _ _ hR2
          simp only [ha, hb, ht2]
          by_cases hc : st ≠ .success ∨ lt (B.tsq b2) tol = true
          · rw [if_pos hc, if_pos hc]; exact .inr ⟨rfl, rfl⟩
          · rw [if_neg hc, if_neg hc]
            rw [not_or, not_not] at hc
            obtain ⟨rfl, hc⟩ := hc
            exact ih _ hi1 hR2 (htr.step ho hb (by simpa using hc))

theorem optimLoop_sim {A : SearchSpace SA X C T} {B : SearchSpace SB X C T} {R : SA → SB → Prop} {bad : SB → Prop}
    (hx : ∀ a b, R a b → A.xc a = B.xc b) (ht : ∀ a b, R a b → A.tsq a = B.tsq b) {omega : OracleOptim O X C G} {I : O → Prop}
    (hI : ∀ o x γ, I o → I (omega o x γ).1)
    (hu : ∀ o o' a b γ cut γ1, I o → R a b → omega o (B.xc b) γ = (o', .ok (cut, γ1)) →
      Lockstep R bad (A.updateFor a (⟨B.xc b, γ, cut, γ1⟩ : OptimEvent X C G)) (B.updateFor b (⟨B.xc b, γ, cut, γ1⟩ : OptimEvent X C G)))
    (lt : T → T → Bool) (tol : T) {o : O} {b : SB} {g0 : G} :
    ∀ (fuel k : ℕ) {l : List (OptimEvent X C G)} {o1 : O} {a1 : SA} {b1 : SB} {g1 : G} {x1 : Option X}, I o1 → R a1 b1 →
      OptimTrace omega B lt tol o b g0 l o1 b1 → bestOf g0 l = (x1, g1) →
      ((optimLoop omega A lt tol fuel k o1 a1 g1 x1).2.2 = .error .zeroDivision ∧
        ∃ l o1 b1 o2 ev, OptimTrace omega B lt tol o b g0 l o1 b1 ∧ ev.x = B.xc b1 ∧ ev.gamma = (bestOf g0 l).2 ∧
          omega o1 ev.x ev.gamma = (o2, .ok (ev.cut, ev.gamma1)) ∧ bad (B.updateFor b1 ev).1) ∨
      ((optimLoop omega A lt tol fuel k o1 a1 g1 x1).1 = (optimLoop omega B lt tol fuel k o1 b1 g1 x1).1 ∧
        (optimLoop omega A lt tol fuel k o1 a1 g1 x1).2.2 = (optimLoop omega B lt tol fuel k o1 b1 g1 x1).2.2) := by
  intro fuel
  induction fuel with
  | zero => intros; exact .inr ⟨rfl, rfl⟩
  | succ fuel ih =>
    intro k l o1 a1 b1 g1 x1 hi hR htr hbest
    have hxab := hx _ _ hR
    have hi1 := hI o1 (B.xc b1) g1 hi
    have hg1 : (bestOf g0 l).2 = g1 := by rw [hbest]
    unfold optimLoop
    rw [hxab]
    rcases ho : omega o1 (B.xc b1) g1 with ⟨o2, f | ⟨cut, γ1⟩⟩
    · exact .inr ⟨rfl, rfl⟩
    · rw [ho] at hi1
      have hstep := hu _ _ _ _ _ _ _ hi hR ho
      have hbe := bestOf_snoc g0 l (⟨B.xc b1, g1, cut, γ1⟩ : OptimEvent X C G)
      rcases ha : A.updateFor a1 (⟨B.xc b1, g1, cut, γ1⟩ : OptimEvent X C G) with ⟨a2, ra⟩
      rcases hb : B.updateFor b1 (⟨B.xc b1, g1, cut, γ1⟩ : OptimEvent X C G) with ⟨b2, rb⟩
      rw [ha, hb] at hstep
      rcases hstep with ⟨h1, h2⟩ | ⟨h1, h2⟩
      · simp only at h1 h2
        subst h1
        refine .inl ⟨?_, l, o1, b1, o2, ⟨B.xc b1, g1, cut, γ1⟩, htr, rfl, hg1.symm, ho, by rw [hb]; exact h2⟩
        cases γ1 with
        | none =>
          have ha' : A.updateBiasCut a1 cut = _ := ha
          simp only [ha']
        | some γ =>
          have ha' : A.updateCentralCut a1 cut = _ := ha
          simp only [ha']
      · simp only at h1 h2
        subst h1
        rcases ra with f | st
        · cases γ1 with
          | none =>
            have ha' : A.updateBiasCut a1 cut = _ := ha
            have hb' : B.updateBiasCut b1 cut = _ := hb
            simp only [ha', hb']; exact .inr ⟨trivial, trivial⟩
          | some γ =>
            have ha' : A.updateCentralCut a1 cut = _ := ha
            have hb' : B.updateCentralCut b1 cut = _ := hb
            simp only [ha', hb']; exact .inr ⟨trivial, trivial⟩
        · have hR2 := h2 st rfl
          have ht2 := ht _ _ hR2
          cases γ1 with
          | none =>
            have ha' : A.updateBiasCut a1 cut = _ := ha
            have hb' : B.updateBiasCut b1 cut = _ := hb
            simp only [ha', hb', ht2]
            by_cases hc : st ≠ .success ∨ lt (B.tsq b2) tol = true
            · rw [if_pos hc, if_pos hc]; exact .inr ⟨rfl, rfl⟩
            · rw [if_neg hc, if_neg hc]
              rw [not_or, not_not] at hc
              obtain ⟨rfl, hc⟩ := hc
              exact ih _ hi1 hR2 (htr.step (e := ⟨B.xc b1, g1, cut, none⟩) rfl hg1.symm ho hb (by simpa using hc))
                (hbe.trans hbest)
          | some γ =>
            have ha' : A.updateCentralCut a1 cut = _ := ha
            have hb' : B.updateCentralCut b1 cut = _ := hb
            simp only [ha', hb', ht2]
            by_cases hc : st ≠ .success ∨ lt (B.tsq b2) tol = true
            · rw [if_pos hc, if_pos hc]; exact .inr ⟨rfl, rfl⟩
            · rw [if_neg hc, if_neg hc]
              rw [not_or, not_not] at hc
              obtain ⟨rfl, hc⟩ := hc
              exact ih _ hi1 hR2 (htr.step (e := ⟨B.xc b1, g1, cut, some γ⟩) rfl hg1.symm ho hb (by simpa using hc)) hbe

theorem optimQLoop_sim {A : SearchSpace SA X C T} {B : SearchSpace SB X C T} {R : SA → SB → Prop} {bad : SB → Prop}
    (hx : ∀ a b, R a b → A.xc a = B.xc b) (ht : ∀ a b, R a b → A.tsq a = B.tsq b) {omega : OracleOptimQ O X C G} {I : O → Prop}
    (hI : ∀ o x γ r, I o → I (omega o x γ r).1)
    (hu : ∀ o o' a b γ r ans, I o → R a b → omega o (B.xc b) γ r = (o', .ok ans) →
      Lockstep R bad (A.updateQ a ans.cut) (B.updateQ b ans.cut)) (lt : T → T → Bool) (tol : T) {o : O} {b : SB} {g0 : G} :
    ∀ (fuel k : ℕ) {l : List (QEvent X C G)} {o1 : O} {a1 : SA} {b1 : SB} {g1 : G} {x1 : Option X} {r1 : Bool}, I o1 → R a1 b1 →
      QTrace omega B lt tol o b g0 l o1 b1 → bestOfQ g0 l = (x1, g1) → retryAfter l = r1 →
      ((optimQLoop omega A lt tol fuel k o1 a1 g1 x1 r1).2.2 = .error .zeroDivision ∧
        ∃ l o1 b1 o2 ans, QTrace omega B lt tol o b g0 l o1 b1 ∧
          omega o1 (B.xc b1) (bestOfQ g0 l).2 (retryAfter l) = (o2, .ok ans) ∧ bad (B.updateQ b1 ans.cut).1) ∨
      ((optimQLoop omega A lt tol fuel k o1 a1 g1 x1 r1).1 = (optimQLoop omega B lt tol fuel k o1 b1 g1 x1 r1).1 ∧
        (optimQLoop omega A lt tol fuel k o1 a1 g1 x1 r1).2.2 = (optimQLoop omega B lt tol fuel k o1 b1 g1 x1 r1).2.2) := by
  intro fuel
  induction fuel with
  | zero => intros; exact .inr ⟨rfl, rfl⟩
  | succ fuel ih =>
    intro k l o1 a1 b1 g1 x1 r1 hi hR htr hbest hr
    have hxab := hx _ _ hR
    have hi1 := hI o1 (B.xc b1) g1 r1 hi
    have hg1 : (bestOfQ g0 l).2 = g1 := by rw [hbest]
    unfold optimQLoop
    rw [hxab]
    rcases ho : omega o1 (B.xc b1) g1 r1 with ⟨o2, f | ans⟩
    · exact .inr ⟨rfl, rfl⟩
    · rw [ho] at hi1
      have hstep := hu _ _ _ _ _ _ _ hi hR ho
      rcases ha : A.updateQ a1 ans.cut with ⟨a2, ra⟩
      rcases hb : B.updateQ b1 ans.cut with ⟨b2, rb⟩
      rw [ha, hb] at hstep
      rcases hstep with ⟨h1, h2⟩ | ⟨h1, h2⟩
      · simp only at h1 h2
        subst h1
        refine .inl ⟨?_, l, o1, b1, o2, ans, htr, by rw [hg1, hr]; exact ho, by rw [hb]; exact h2⟩
        simp only [ha]
      · simp only at h1 h2
        subst h1
        rcases ra with f | st
        · simp only [ha, hb]; exact .inr ⟨trivial, trivial⟩
        · have hR2 := h2 st rfl
          have ht2 := ht _ _ hR2
          have hbe : bestOfQ g0 (l ++ [(⟨B.xc b1, g1, r1, ans, st⟩ : QEvent X C G)]) =
              (if ans.gamma1.isSome then some ans.xq else x1, ans.gamma1.getD g1) := by
            rw [bestOfQ_snoc]
            show (match ans.gamma1 with | none => bestOfQ g0 l | some g => (some ans.xq, g)) = _
            rcases ans.gamma1 with _ | g
            · simpa using hbest
            · simp
          have hra := retryAfter_snoc l (⟨B.xc b1, g1, r1, ans, st⟩ : QEvent X C G)
          have hnext : st ≠ .noSoln → (st = .noEffect → ans.moreAlt = true) → lt (B.tsq b2) tol = false →
              QTrace omega B lt tol o b g0 (l ++ [(⟨B.xc b1, g1, r1, ans, st⟩ : QEvent X C G)]) o2 b2 :=
            fun q1 q2 q3 => htr.step (e := ⟨B.xc b1, g1, r1, ans, st⟩) rfl hg1.symm hr.symm ho hb q1 q2 q3
          simp only [ha, hb, ht2]
          rcases hlt : lt (B.tsq b2) tol with _ | _
          · cases hst : st with
            | success =>
              subst hst
              exact ih _ hi1 hR2 (hnext (by simp) (by simp) hlt) hbe hra
            | noSoln => exact .inr ⟨rfl, rfl⟩
            | noEffect =>
              subst hst
              simp only
              by_cases hm : ans.moreAlt = false
              · rw [if_pos hm, if_pos hm]; exact .inr ⟨rfl, rfl⟩
              · rw [if_neg hm, if_neg hm]
                exact ih _ hi1 hR2 (hnext (by simp) (by simpa using hm) hlt) hbe hra
            | unknown =>
              subst hst
              exact ih _ hi1 hR2 (hnext (by simp) (by simp) hlt) hbe hra
          · cases hst : st <;> simp

end Ellalgo
