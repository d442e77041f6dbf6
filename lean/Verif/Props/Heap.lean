import Verif.Model.Heap
import Verif.Props.Loops
import Verif.Props.Containment

/-! # C30, C31: array identity -/

namespace Ellalgo

open CuttingPlane

variable {n : ℕ} {O G : Type*}

namespace EllObj

@[simp] theorem view_ofEll (h : Heap n) (a : ℕ) (e : Ell n) : (ofEll a e).view (h.write a e.xc) = e := by
  simp [view, ofEll, Heap.write]

@[simp] theorem ofEll_xcRef (a : ℕ) (e : Ell n) : (ofEll a e).xcRef = a := rfl

theorem view_update (h : Heap n) (e : EllObj n) (m : Method) (cut : Cut n) :
    (e.update h m cut).2.1.view (e.update h m cut).1 = ((e.view h).update m cut).1 ∧
    (e.update h m cut).2.2 = ((e.view h).update m cut).2 := by
  simp [update]

theorem update_frame (h : Heap n) (e : EllObj n) (m : Method) (cut : Cut n) :
    (e.update h m cut).2.1.xcRef = e.xcRef ∧ (e.update h m cut).1.next = h.next ∧
    ∀ a, a ≠ e.xcRef → (e.update h m cut).1.mem a = h.mem a := by
  refine ⟨rfl, rfl, fun a ha => ?_⟩
  simp [update, Heap.write, Function.update_of_ne ha]

theorem run_frame (h : Heap n) (e : EllObj n) (l : List (Method × Cut n)) :
    (e.run h l).2.xcRef = e.xcRef ∧ ∀ a, a ≠ e.xcRef → (e.run h l).1.mem a = h.mem a := by
  induction l generalizing h e with
  | nil => exact ⟨rfl, fun _ _ => rfl⟩
  | cons p l ih =>
    obtain ⟨m, cut⟩ := p
    obtain ⟨f1, -, f3⟩ := update_frame h e m cut
    obtain ⟨i1, i2⟩ := ih (e.update h m cut).1 (e.update h m cut).2.1
    exact ⟨i1.trans f1, fun a ha => (i2 a (by rw [f1]; exact ha)).trans (f3 a ha)⟩

end EllObj

/-- Follow the reference in a result of `cutting_plane_feas`. -/
def derefFeas (h : Heap n) : Except Fault (Option ℕ × ℕ) → Except Fault (Option (Vec n) × ℕ) :=
  Except.map fun r => (r.1.map h.mem, r.2)

/-- Follow the reference in a result of `cutting_plane_optim`. -/
def derefOptim (h : Heap n) : Except Fault (Option ℕ × G × ℕ) → Except Fault (Option (Vec n) × G × ℕ) :=
  Except.map fun r => (r.1.map h.mem, r.2.1, r.2.2)

theorem hFeasLoop_sim (omega : OracleFeas O (Vec n) (Cut n)) (lt : ℝ → ℝ → Bool) (tol : ℝ) :
    ∀ (fuel niter : ℕ) (h : Heap n) (o : O) (e : EllObj n) (h' : Heap n) (o' : O) (e' : EllObj n)
      (r : Except Fault (Option ℕ × ℕ)), hFeasLoop omega lt tol fuel niter h o e = (h', o', e', r) →
      feasLoop omega (Ell.space n) lt tol fuel niter o (e.view h) = (o', e'.view h', derefFeas h' r) ∧
      e'.xcRef = e.xcRef ∧ (∀ a k, r = .ok (some a, k) → a = e.xcRef) ∧
      ∀ a, a ≠ e.xcRef → h'.mem a = h.mem a := by
  intro fuel
  induction fuel with
  | zero =>
    intro niter h o e h' o' e' r hr
    rw [hFeasLoop] at hr
    cases hr
    exact ⟨rfl, rfl, by simp, fun _ _ => rfl⟩
  | succ fuel ih =>
    intro niter h o e h' o' e' r hr
    rw [hFeasLoop] at hr
    rw [feasLoop]
    have hxc : (Ell.space n).xc (e.view h) = h.mem e.xcRef := rfl
    rw [hxc]
    rcases h1 : omega o (h.mem e.xcRef) with ⟨o1, f | _ | cut⟩
    · rw [h1] at hr; cases hr; exact ⟨rfl, rfl, by simp, fun _ _ => rfl⟩
    · rw [h1] at hr; cases hr
      refine ⟨rfl, rfl, ?_, fun _ _ => rfl⟩
      intro a k hk; simp only [Except.ok.injEq, Prod.mk.injEq, Option.some.injEq] at hk; exact hk.1.symm
    · rw [h1] at hr
      simp only at hr ⊢
      obtain ⟨v1, v2⟩ := EllObj.view_update h e .bias cut
      obtain ⟨f1, -, f3⟩ := EllObj.update_frame h e .bias cut
      have hup : (Ell.space n).updateBiasCut (e.view h) cut = (e.view h).update .bias cut := rfl
      rw [hup]
      rcases h2 : e.update h .bias cut with ⟨h1', e1, res⟩
      rw [h2] at hr v1 v2 f1 f3
      simp only at v1 v2 f1 f3
      rcases h3 : (e.view h).update .bias cut with ⟨s1, res'⟩
      rw [h3] at v1 v2
      simp only at v1 v2
      subst v2
      cases res with
      | error f => cases hr; exact ⟨by simp [v1, derefFeas, Except.map], f1, by simp, f3⟩
      | ok st =>
        simp only at hr ⊢
        have ht : (Ell.space n).tsq s1 = e1.tsq := by rw [← v1]; rfl
        rw [ht]
        by_cases hc : st ≠ .success ∨ lt e1.tsq tol = true
        · rw [if_pos hc] at hr ⊢
          cases hr
          exact ⟨by simp [v1, derefFeas, Except.map], f1, by simp, f3⟩
        · rw [if_neg hc] at hr ⊢
          obtain ⟨i1, i2, i3, i4⟩ := ih _ _ _ _ _ _ _ _ hr
          rw [v1] at i1
          refine ⟨i1, i2.trans f1, fun a k hk => (i3 a k hk).trans f1, fun a ha => ?_⟩
          rw [i4 a (by rw [f1]; exact ha), f3 a ha]

/-- **C30 (feasibility).** On the heap `cutting_plane_feas` computes what the value model computes; the array it returns is the space's own
centre array (so later updates of the space overwrite it), and no other array is changed. -/
theorem C30_feas_returns_live_array (omega : OracleFeas O (Vec n) (Cut n)) (lt : ℝ → ℝ → Bool)
    (h : Heap n) (o : O) (e : EllObj n) (opts : Options ℝ) (h' : Heap n) (o' : O) (e' : EllObj n)
    (r : Except Fault (Option ℕ × ℕ)) (hr : hFeas omega lt h o e opts = (h', o', e', r)) :
    feas omega (Ell.space n) lt o (e.view h) opts = (o', e'.view h', derefFeas h' r) ∧
    (∀ a k, r = .ok (some a, k) → a = e'.xcRef) ∧ ∀ a, a ≠ e.xcRef → h'.mem a = h.mem a := by
  obtain ⟨a, b, c, d⟩ := hFeasLoop_sim _ _ _ _ _ _ _ _ _ _ _ _ hr
  exact ⟨a, fun x k hk => (c x k hk).trans b.symm, d⟩

theorem hOptimLoop_sim (omega : OracleOptim O (Vec n) (Cut n) G) (lt : ℝ → ℝ → Bool) (tol : ℝ) :
    ∀ (fuel niter : ℕ) (h : Heap n) (o : O) (e : EllObj n) (γ : G) (xb : Option ℕ)
      (h' : Heap n) (o' : O) (e' : EllObj n) (r : Except Fault (Option ℕ × G × ℕ)),
      e.xcRef < h.next → (∀ a, xb = some a → a < h.next ∧ a ≠ e.xcRef) →
      hOptimLoop omega lt tol fuel niter h o e γ xb = (h', o', e', r) →
      optimLoop omega (Ell.space n) lt tol fuel niter o (e.view h) γ (xb.map h.mem) =
        (o', e'.view h', derefOptim h' r) ∧
      e'.xcRef = e.xcRef ∧ (∀ a g k, r = .ok (some a, g, k) → a ≠ e.xcRef ∧ (xb = some a ∨ h.next ≤ a)) ∧
      ∀ a, a ≠ e.xcRef → a < h.next → h'.mem a = h.mem a := by
  intro fuel
  induction fuel with
  | zero =>
    intro niter h o e γ xb h' o' e' r hx hb hr
    rw [hOptimLoop] at hr
    cases hr
    refine ⟨rfl, rfl, ?_, fun _ _ _ => rfl⟩
    intro a g k hk
    simp only [Except.ok.injEq, Prod.mk.injEq] at hk
    exact ⟨(hb a hk.1).2, .inl hk.1⟩
  | succ fuel ih =>
    intro niter h o e γ xb h' o' e' r hx hb hr
    rw [hOptimLoop] at hr
    rw [optimLoop]
    have hxc : (Ell.space n).xc (e.view h) = h.mem e.xcRef := rfl
    rw [hxc]
    rcases h1 : omega o (h.mem e.xcRef) γ with ⟨o1, f | ⟨cut, _ | γ1⟩⟩
    · rw [h1] at hr; cases hr; exact ⟨rfl, rfl, by simp, fun _ _ _ => rfl⟩
    · -- bias cut
      rw [h1] at hr
      simp only at hr ⊢
      obtain ⟨v1, v2⟩ := EllObj.view_update h e .bias cut
      obtain ⟨f1, f2, f3⟩ := EllObj.update_frame h e .bias cut
      have hup : (Ell.space n).updateBiasCut (e.view h) cut = (e.view h).update .bias cut := rfl
      rw [hup]
      rcases h2 : e.update h .bias cut with ⟨h1', e1, res⟩
      rw [h2] at hr v1 v2 f1 f2 f3
      simp only at v1 v2 f1 f2 f3
      rcases h3 : (e.view h).update .bias cut with ⟨s1, res'⟩
      rw [h3] at v1 v2
      simp only at v1 v2
      subst v2
      have hxb : xb.map h.mem = xb.map h1'.mem := by
        cases xb with
        | none => rfl
        | some a => simp [f3 a (hb a rfl).2]
      cases res with
      | error f => cases hr; exact ⟨by simp [v1, derefOptim, Except.map], f1, by simp, fun a ha _ => f3 a ha⟩
      | ok st =>
        simp only at hr ⊢
        have ht : (Ell.space n).tsq s1 = e1.tsq := by rw [← v1]; rfl
        rw [ht]
        by_cases hc : st ≠ .success ∨ lt e1.tsq tol = true
        · rw [if_pos hc] at hr ⊢
          cases hr
          refine ⟨by simp [v1, derefOptim, Except.map, hxb], f1, ?_, fun a ha _ => f3 a ha⟩
          intro a g k hk
          simp only [Except.ok.injEq, Prod.mk.injEq] at hk
          exact ⟨(hb a hk.1).2, .inl hk.1⟩
        · rw [if_neg hc] at hr ⊢
          obtain ⟨i1, i2, i3, i4⟩ := ih _ _ _ _ _ _ _ _ _ _ (by rw [f1, f2]; exact hx)
            (by rw [f1, f2]; exact hb) hr
          rw [v1, ← hxb] at i1
          rw [f1, f2] at i3
          refine ⟨i1, i2.trans f1, i3, fun a ha hlt => ?_⟩
          rw [i4 a (by rw [f1]; exact ha) (by rw [f2]; exact hlt), f3 a ha]
    · -- central cut, after taking a copy
      rw [h1] at hr
      simp only [Heap.alloc] at hr ⊢
      set h0 : Heap n := { mem := Function.update h.mem h.next (h.mem e.xcRef), next := h.next + 1 } with hh0
      have hv : e.view h0 = e.view h := by
        simp only [EllObj.view, hh0, Function.update_of_ne hx.ne]
      obtain ⟨v1, v2⟩ := EllObj.view_update h0 e .central cut
      obtain ⟨f1, f2, f3⟩ := EllObj.update_frame h0 e .central cut
      rw [hv] at v1 v2
      have hup : (Ell.space n).updateCentralCut (e.view h) cut = (e.view h).update .central cut := rfl
      rw [hup]
      rcases h2 : e.update h0 .central cut with ⟨h1', e1, res⟩
      rw [h2] at hr v1 v2 f1 f2 f3
      simp only at v1 v2 f1 f2 f3
      rcases h3 : (e.view h).update .central cut with ⟨s1, res'⟩
      rw [h3] at v1 v2
      simp only at v1 v2
      subst v2
      have hne : h.next ≠ e.xcRef := hx.ne'
      have hnew : h1'.mem h.next = h.mem e.xcRef := by rw [f3 _ hne]; simp [hh0]
      have hold : ∀ a, a ≠ e.xcRef → a < h.next → h1'.mem a = h.mem a := by
        intro a ha hlt
        rw [f3 a ha]; exact Function.update_of_ne hlt.ne _ _
      cases res with
      | error f => cases hr; exact ⟨by simp [v1, derefOptim, Except.map], f1, by simp, hold⟩
      | ok st =>
        simp only at hr ⊢
        have ht : (Ell.space n).tsq s1 = e1.tsq := by rw [← v1]; rfl
        rw [ht]
        by_cases hc : st ≠ .success ∨ lt e1.tsq tol = true
        · rw [if_pos hc] at hr ⊢
          cases hr
          refine ⟨by simp [v1, derefOptim, Except.map, hnew], f1, ?_, hold⟩
          intro a g k hk
          simp only [Except.ok.injEq, Prod.mk.injEq, Option.some.injEq] at hk
          rw [← hk.1]
          exact ⟨hne, .inr le_rfl⟩
        · rw [if_neg hc] at hr ⊢
          have hn1 : h1'.next = h.next + 1 := by rw [f2]
          obtain ⟨i1, i2, i3, i4⟩ := ih _ _ _ _ _ _ _ _ _ _ (by rw [f1, hn1]; omega)
            (by intro a ha; cases ha; rw [f1, hn1]; exact ⟨by omega, hne⟩) hr
          rw [v1, Option.map_some, hnew] at i1
          rw [f1, hn1] at i3
          refine ⟨i1, i2.trans f1, fun a g k hk => ?_, fun a ha hlt => ?_⟩
          · obtain ⟨j1, j2⟩ := i3 a g k hk
            refine ⟨j1, .inr ?_⟩
            rcases j2 with j2 | j2
            · cases j2; exact le_rfl
            · omega
          · rw [i4 a (by rw [f1]; exact ha) (by rw [hn1]; omega), hold a ha hlt]

/-- **C30 (optimisation).** On the heap, with in-place updates, `cutting_plane_optim` computes what the value model computes, the returned reference being
followed *after* the run. The returned array is freshly allocated, hence neither the space's centre nor any array that
existed before, and no later sequence of updates of the space changes it. Arrays that existed before, other than the centre array, are
unchanged. -/
theorem C30_optim_snapshot (omega : OracleOptim O (Vec n) (Cut n) G) (lt : ℝ → ℝ → Bool)
    (h : Heap n) (o : O) (e : EllObj n) (γ : G) (opts : Options ℝ) (hx : e.xcRef < h.next)
    (h' : Heap n) (o' : O) (e' : EllObj n)
    (r : Except Fault (Option ℕ × G × ℕ)) (hr : hOptim omega lt h o e γ opts = (h', o', e', r)) :
    optim omega (Ell.space n) lt o (e.view h) γ opts = (o', e'.view h', derefOptim h' r) ∧
    (∀ a g k, r = .ok (some a, g, k) → h.next ≤ a ∧ a ≠ e'.xcRef ∧
      ∀ l, (e'.run h' l).1.mem a = h'.mem a) ∧
    ∀ a, a ≠ e.xcRef → a < h.next → h'.mem a = h.mem a := by
  obtain ⟨a, b, c, d⟩ := hOptimLoop_sim _ _ _ _ _ _ _ _ _ _ _ _ _ _ hx (by simp) hr
  refine ⟨a, fun x g k hk => ?_, d⟩
  obtain ⟨c1, c2⟩ := c x g k hk
  have hne : x ≠ e'.xcRef := by rw [b]; exact c1
  refine ⟨by simpa using c2, hne, fun l => (EllObj.run_frame h' e' l).2 x hne⟩

/-- A heap with one array, the origin of the plane, and the unit disc built on it. -/
noncomputable def demoHeap : Heap 2 := ⟨fun _ => 0, 1⟩

/-- The unit disc on `demoHeap`. -/
noncomputable def demoObj : EllObj 2 := EllObj.ofEll 0 unitDisc

theorem demo_view : demoObj.view demoHeap = unitDisc := rfl

theorem demo_update : (demoObj.update demoHeap .bias (![1, 0], .scalar (1 / 2))).1.mem 0 0 = -(2 / 3) := by
  have h := Ell.updateCore_some (e := unitDisc) e1_ne_zero unitDisc_omega_ne
    (β := .scalar (1 / 2)) (s := unitDisc.helper.calcSingleOrParallel)
    (by rw [unitDisc_tsq]; exact EllCalc.calcBiasCut_success (by norm_num) (by norm_num) (by norm_num))
  have h2 : unitDisc.update .bias (![1, 0], .scalar (1 / 2)) = _ := h
  simp only [EllObj.update, demo_view, h2]
  simp [Heap.write, demoObj, Ell.applied, unitDisc_omega, EllCalcCore.biasParams]
  simp [unitDisc]
  norm_num

/-- The hypotheses of C30 are met by the demo object, and the array returned by `cutting_plane_feas`, being the live centre, *is* overwritten by a
later cut. -/
example : demoObj.xcRef < demoHeap.next ∧
    ∃ a k h' o' e', hFeas (fun (o : Unit) _ => (o, .ok none)) ltReal demoHeap () demoObj ⟨5, 0⟩ =
      (h', o', e', .ok (some a, k)) ∧ (e'.run h' [(.bias, (![1, 0], .scalar (1 / 2)))]).1.mem a ≠ h'.mem a := by
  refine ⟨by simp [demoObj, demoHeap], 0, 0, demoHeap, (), demoObj, rfl, fun hc => ?_⟩
  have h1 := demo_update
  have h2 := congrFun hc 0
  simp only [EllObj.run] at h2
  rw [h1] at h2
  norm_num [demoHeap] at h2

/-- The full claim C31: running updates on an `Ell` built from an array leaves that array's contents alone. -/
def C31_claim : Prop :=
  ∀ (n : ℕ) (h : Heap n) (val : InitVal n) (a : ℕ) (e : EllObj n), EllObj.init h val a = .ok e →
    ∀ l : List (Method × Cut n), (e.run h l).1.mem a = h.mem a

/-- **C31 refuted.** `Ell(1.0, x0)` followed by one deep cut has changed the caller's `x0`. -/
theorem C31_refuted : ¬ C31_claim := by
  intro hcl
  have hi : EllObj.init demoHeap (.scalar 1) 0 = .ok demoObj := by
    unfold EllObj.init Ell.init
    rw [EllCalc.init_two_le le_rfl]
    rfl
  have h1 := hcl 2 demoHeap (.scalar 1) 0 demoObj hi [(.bias, (![1, 0], .scalar (1 / 2)))]
  have h2 := congrFun h1 0
  simp only [EllObj.run] at h2
  rw [demo_update] at h2
  norm_num [demoHeap] at h2

/-- **C31, the part that holds.** Every array other than the one passed as `x_center` keeps its contents; and the array passed always
equals the object's current centre. -/
theorem C31_other_arrays_unchanged_partial (h : Heap n) (val : InitVal n) (a : ℕ) (e : EllObj n)
    (he : EllObj.init h val a = .ok e) (l : List (Method × Cut n)) :
    (∀ b, b ≠ a → (e.run h l).1.mem b = h.mem b) ∧
    (e.run h l).1.mem a = ((e.run h l).2.view (e.run h l).1).xc := by
  have hx : e.xcRef = a := by
    unfold EllObj.init at he
    rcases hi : Ell.init val (h.mem a) with f | e0
    · rw [hi] at he; cases he
    · rw [hi] at he; cases he; rfl
  obtain ⟨r1, r2⟩ := EllObj.run_frame h e l
  refine ⟨fun b hb => r2 b (by rw [hx]; exact hb), ?_⟩
  simp [EllObj.view, r1, hx]

end Ellalgo
