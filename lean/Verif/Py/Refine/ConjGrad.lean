import Verif.Py.Refine.LdltMgr
import Verif.Model.RoundedConjGrad

/-!
# The text of `conjugate_gradient.py` computes what `Model/RoundedConjGrad` says
-/

set_option linter.unusedSimpArgs false

namespace Ellalgo.Py

variable {W : Type} {n : ℕ} {A : Arith} {ext : ℕ → String → List Val → M W Val} {fuel : ℕ}

/-- The local variables at the head of the loop. The three arrays are new and different. -/
structure CGAt (st0 : St W) (lA : ℕ) (m : Mat n) (vt : Val) (env : Env) (st : St W) (s : CGState n) : Prop where
  vars : ∃ ls lr ld, env "solution" = some (.ref ls) ∧ env "residual" = some (.ref lr) ∧ env "direction" = some (.ref ld)
    ∧ st.heap ls = some (.vec n s.sol) ∧ st.heap lr = some (.vec n s.res) ∧ st.heap ld = some (.vec n s.dir)
    ∧ st0.next ≤ ls ∧ st0.next ≤ lr ∧ st0.next ≤ ld ∧ ls < st.next ∧ lr < st.next ∧ ld < st.next ∧ ls ≠ lr ∧ ls ≠ ld ∧ lr ≠ ld
  rr : env "residual_norm_sq" = some (.num s.rr)
  mat : env "A" = some (.ref lA)
  matAt : st.heap lA = some (.mat n n (Matrix.of.symm m))
  ltA : lA < st0.next
  tol : env "tol" = some vt
  np : env "np" = none
  err : env "ValueError" = none
  frame : Frame (fun _ => False) st0 st

theorem cg_turn {st0 st : St W} {lA : ℕ} {m : Mat n} {vt : Val} {tol : ℝ} (ht : vt.toReal = some tol) {env : Env} {s : CGState n} (h : CGAt st0 lA m vt env st s) (k : ℤ) :
    match A.cgStep m tol s with
    | .error f => ∃ st', turn (mach A ext) (call (mach A ext) (fuel + 1)) (.name "iteration") (loopBody Source.ConjugateGradient.conjugate_gradient.body) (.int k) env st = .exc (excOf f) st' ∧ Frame (fun _ => False) st0 st'
    | .ok (.inl x) => ∃ st' l, turn (mach A ext) (call (mach A ext) (fuel + 1)) (.name "iteration") (loopBody Source.ConjugateGradient.conjugate_gradient.body) (.int k) env st = .ok (.ret (.ref l)) st'
        ∧ st0.next ≤ l ∧ st'.heap l = some (.vec n x) ∧ Frame (fun _ => False) st0 st'
    | .ok (.inr s') => ∃ st' env', turn (mach A ext) (call (mach A ext) (fuel + 1)) (.name "iteration") (loopBody Source.ConjugateGradient.conjugate_gradient.body) (.int k) env st = .ok (.next env') st'
        ∧ CGAt st0 lA m vt env' st' s' := by
  obtain ⟨ls, lr, ld, e1, e2, e3, h1, h2, h3, g1, g2, g3, b1, b2, b3, n1, n2, n3⟩ := h.vars
  simp only [loopBody, Source.ConjugateGradient.conjugate_gradient]
  have hlt := h.frame.next
  have nA := h.ltA
  have a0 : lA ≠ st.next := by omega
  have c1 : ls ≠ st.next := by omega
  have c2 : lr ≠ st.next := by omega
  have c3 : ld ≠ st.next := by omega
  have c4 : ls ≠ st.next + 1 := by omega
  have c5 : lr ≠ st.next + 1 := by omega
  have c6 : ld ≠ st.next + 1 := by omega
  simp only [py, h.np, h.mat, h.matAt, e3, h3, heap_alloc_ne c3, heap_alloc_ne a0, Equiv.apply_symm_apply, Arith.cgStep]
  generalize A.mv m s.dir = ad
  generalize A.dot s.dir ad = dad
  by_cases hd : dad = 0
  · simp only [hd, cmp_eq_real (show (Val.num 0).toReal = some 0 from rfl), Int.cast_zero, decide_true, py, if_true, h.err]
    exact ⟨_, rfl, h.frame.alloc _⟩
  · simp only [hd, cmp_eq_real (show (Val.num dad).toReal = some dad from rfl), Int.cast_zero, decide_false, py, if_false, e1, e2, e3, h1, h2, h3, h.rr]
    have d1 : st.next ≠ ls := c1.symm
    have d2 : st.next ≠ lr := c2.symm
    have d3 : st.next ≠ ld := c3.symm
    have n1' := n1.symm
    have n2' := n2.symm
    have n3' := n3.symm
    have d4 : st.next + 1 ≠ ls := c4.symm
    have d5 : st.next + 1 ≠ lr := c5.symm
    have d6 : st.next + 1 ≠ ld := c6.symm
    have f1 : st.next ≠ st.next + 1 := by omega
    have f2 : st.next + 1 + 1 ≠ ls := by omega
    have f3 : ls ≠ st.next + 1 + 1 := by omega
    have f4 : lr ≠ st.next + 1 + 1 := by omega
    have f5 : st.next + 1 + 1 ≠ lr := by omega
    simp only [py, c1, c2, c3, c4, c5, c6, d1, d2, d3, d4, d5, d6, f1, f2, f3, f4, f5, n1, n2, n3, n1', n2', n3', e1, e2, e3, h1, h2, h3, h.rr, h.tol, h.np, if_false, if_true,
      Arith.psqrt, Arith.pdiv]
    generalize hsol : (fun i => A.add (s.sol i) (A.mul (A.div s.rr dad) (s.dir i))) = sol
    generalize hres : (fun i => A.sub (s.res i) (A.mul (A.div s.rr dad) (ad i))) = res
    have hdir : ∀ ratio : ℝ, (fun i => A.add (A.sub (s.res i) (A.mul (A.div s.rr dad) (ad i))) (A.mul ratio (s.dir i))) = fun i => A.add (res i) (A.mul ratio (s.dir i)) := fun ratio => by
      rw [← hres]
    simp only [hdir]
    have hfr : Frame (fun _ => False) st0 (((((st.alloc (.vec n ad)).alloc (.vec n fun i => A.mul (A.div s.rr dad) (s.dir i))).put ls (.vec n sol)).alloc
        (.vec n fun i => A.mul (A.div s.rr dad) (ad i))).put lr (.vec n res)) :=
      ((((h.frame.alloc _).alloc _).put _ (.inr g1)).alloc _).put _ (.inr g2)
    by_cases hneg : A.dot res res < 0
    · simp only [hneg, if_true]
      exact ⟨_, rfl, hfr⟩
    simp only [hneg, if_false, cmp_lt_real (show (Val.num (A.rnd √(A.dot res res))).toReal = some _ from rfl) ht, ltReal]
    by_cases hlt : A.rnd √(A.dot res res) < tol
    · simp only [hlt, decide_true, if_true, py, e1]
      exact ⟨_, ls, rfl, g1, by simp only [py, c1, c2, c4, c5, f3, n1, if_false, if_true], hfr⟩
    · by_cases hz : s.rr = 0
      · simp only [hlt, decide_false, if_false, py, e1, e2, e3, h.rr, hz, if_true]
        rw [hz] at hfr
        exact ⟨_, rfl, hfr⟩
      · have f6 : lr ≠ st.next + 1 + 1 + 1 := by omega
        have f7 : ld ≠ st.next + 1 + 1 := by omega
        have f8 : st.next + 1 + 1 + 1 ≠ lr := by omega
        have f9 : st.next + 1 + 1 + 1 ≠ st.next + 1 + 1 + 1 + 1 := by omega
        simp only [hlt, decide_false, if_false, py, e1, e2, e3, h.rr, hz, c1, c2, c3, c4, c5, c6, f1, f2, f3, f4, f5, f6, f7, f8, n1, n2, n3, n1', n2', n3', h3, if_true]
        refine ⟨_, _, rfl, ?_⟩
        exact
          { vars := ⟨ls, lr, st.next + (1 + (1 + (1 + 1))), by simp only [py], by simp only [py], by simp only [py],
              by simp only [py, c1, c4, f3, n1, show ls ≠ st.next + 1 + 1 + 1 by omega, show ls ≠ st.next + 1 + 1 + 1 + 1 by omega,
                show ls ≠ st.next + (1 + (1 + 1)) by omega, show ls ≠ st.next + (1 + (1 + (1 + 1))) by omega, show ls ≠ st.next + (1 + 1) by omega, if_false, if_true],
              by simp only [py, show lr ≠ st.next + (1 + (1 + 1)) by omega, show lr ≠ st.next + (1 + (1 + (1 + 1))) by omega, if_false, if_true],
              by simp only [py, if_true], g1, g2, by omega, by simp only [py]; omega, by simp only [py]; omega, by simp only [py]; omega, n1, by omega, by omega⟩
            rr := by simp only [py]
            mat := by simp only [py, h.mat]
            matAt := by
              rw [((hfr.alloc _).alloc _).same lA nA (fun h => h), ← h.frame.same lA nA fun h => h]
              exact h.matAt
            ltA := nA
            tol := by simp only [py, h.tol]
            np := by simp only [py, h.np]
            err := by simp only [py, h.err]
            frame := (hfr.alloc _).alloc _ }

/-- What a run of `conjugate_gradient` ends with: the solution in a new array, or an exception. In both cases nothing that was there before has changed. -/
def CGOutcome (st0 : St W) (r : Except Fault (Vec n)) (res : Res W Val) : Prop :=
  match r with
  | .error f => ∃ st', res = .exc (excOf f) st' ∧ Frame (fun _ => False) st0 st'
  | .ok x => ∃ st' l, res = .ok (.ref l) st' ∧ st0.next ≤ l ∧ st'.heap l = some (.vec n x) ∧ Frame (fun _ => False) st0 st'

theorem cg_loop {st0 st : St W} {lA : ℕ} {m : Mat n} {vt : Val} {tol : ℝ} (ht : vt.toReal = some tol) (k : ℕ) (lo : ℤ) {env : Env} {s : CGState n} (h : CGAt st0 lA m vt env st s) :
    CGOutcome st0 (A.cgLoop m tol k s)
      (((loop (turn (mach A ext) (call (mach A ext) (fuel + 1)) (.name "iteration") (loopBody Source.ConjugateGradient.conjugate_gradient.body)) (intsFrom lo k) env st).bind
        (after (mach A ext) (call (mach A ext) (fuel + 1)) [.raise (.call (.name "ValueError") [.str "Conj Grad did not converge after {max_iter} iterations"])])).bind result) := by
  induction k generalizing lo st env s with
  | zero =>
    simp only [ints_zero, py, h.err, Arith.cgLoop]
    exact ⟨st, rfl, h.frame⟩
  | succ k ih =>
    have hi := cg_turn (A := A) (ext := ext) (fuel := fuel) ht h lo
    simp only [ints_succ, Arith.cgLoop]
    generalize turn (mach A ext) (call (mach A ext) (fuel + 1)) (.name "iteration") (loopBody Source.ConjugateGradient.conjugate_gradient.body) = T at hi ih ⊢
    rcases hr : A.cgStep m tol s with f | x | s' <;> rw [hr] at hi <;> dsimp only at hi ⊢
    · obtain ⟨st', h1, hf⟩ := hi
      simp only [loop, bind_apply, h1, py]
      exact ⟨st', rfl, hf⟩
    · obtain ⟨st', l, h1, hl, hx, hf⟩ := hi
      simp only [loop, bind_apply, h1, py]
      exact ⟨st', l, rfl, hl, hx, hf⟩
    · obtain ⟨st', env', h1, h'⟩ := hi
      simp only [loop, bind_apply, h1, py]
      have hh := ih (lo + 1) h'
      rw [rbind_assoc] at hh
      exact hh

theorem builtin_zeros_vec (k : ℕ) {st : St W} : builtin A "np.zeros" [.int k] st = .ok (.ref st.next) (st.alloc (.vec k 0)) := rfl

/-- `x0`: `None`, or an array that is copied. -/
def IsStart (st : St W) (x0 : Option (Vec n)) (v : Val) : Prop :=
  match x0 with
  | none => v = .none
  | some x => ∃ l, v = .ref l ∧ st.heap l = some (.vec n x)

/-- The head of the loop is reached. -/
theorem cg_ready {st : St W} {lA lb : ℕ} {m : Mat n} (b : Vec n) (x0 : Option (Vec n)) (vx vt : Val) (k : ℤ) (hA : st.heap lA = some (.mat n n (Matrix.of.symm m))) (ltA : lA < st.next) :
    CGAt st lA m vt
      ((((((((((Env.empty.set "A" (.ref lA)).set "b" (.ref lb)).set "x0" vx).set "tol" vt).set "max_iter" (.int k)).set "dimension" (.int n)).set "solution" (.ref st.next)).set
        "residual" (.ref (st.next + (1 + 1)))).set "direction" (.ref (st.next + (1 + (1 + 1))))).set "residual_norm_sq" (.num (A.cgInit m b x0).rr))
      ((((st.alloc (.vec n (A.cgInit m b x0).sol)).alloc (.vec n (A.mv m (A.cgInit m b x0).sol))).alloc (.vec n (A.cgInit m b x0).res)).alloc (.vec n (A.cgInit m b x0).res))
      (A.cgInit m b x0) where
  vars := ⟨st.next, st.next + (1 + 1), st.next + (1 + (1 + 1)), by simp only [py], by simp only [py], by simp only [py],
    by simp only [py, show st.next ≠ st.next + 1 by omega, show st.next ≠ st.next + (1 + 1) by omega, show st.next ≠ st.next + (1 + (1 + 1)) by omega, if_false, if_true],
    by simp only [py, show st.next + (1 + 1) ≠ st.next + (1 + (1 + 1)) by omega, if_false, if_true], by simp only [py, if_true]; rfl,
    by omega, by omega, by omega, by simp only [py]; omega, by simp only [py]; omega, by simp only [py]; omega, by omega, by omega, by omega⟩
  rr := by simp only [py]
  mat := by simp only [py]
  matAt := by rw [(((((Frame.refl (fun _ => False) st).alloc _).alloc _).alloc _).alloc _).same lA ltA fun h => h]; exact hA
  ltA := ltA
  tol := by simp only [py]
  np := by simp only [py]
  err := by simp only [py]
  frame := ((((Frame.refl _ st).alloc _).alloc _).alloc _).alloc _

/-- `conjugate_gradient(A, b, x0, tol, max_iter)`. -/
theorem call_conjugate_gradient {st : St W} {lA lb : ℕ} {m : Mat n} {b : Vec n} {x0 : Option (Vec n)} {vx vt : Val} {tol : ℝ} (ht : vt.toReal = some tol) (k : ℤ)
    (hA : st.heap lA = some (.mat n n (Matrix.of.symm m))) (ltA : lA < st.next) (hb : st.heap lb = some (.vec n b)) (ltb : lb < st.next) (hx : IsStart st x0 vx) :
    CGOutcome st (A.conjugateGradient m b x0 tol k.toNat) (call (mach A ext) (fuel + 2) (.glob "conjugate_gradient") [.ref lA, .ref lb, vx, vt, .int k] st) := by
  rw [call_fun fun_conjugate_gradient rfl]
  have a1 : lA ≠ st.next := ltA.ne
  have a2 : lb ≠ st.next := ltb.ne
  have a3 : st.next ≠ st.next + 1 := by omega
  have a4 : st.next ≠ st.next + 1 + 1 := by omega
  have a5 : lb ≠ st.next + 1 := by omega
  have a6 : st.next + 1 ≠ st.next + 1 + 1 := by omega
  have hh := cg_loop (A := A) (ext := ext) (fuel := fuel) ht k.toNat 0 (cg_ready (A := A) (lb := lb) b x0 vx vt k hA ltA)
  rw [rbind_assoc] at hh
  simp only [loopBody, Source.ConjugateGradient.conjugate_gradient] at hh ⊢
  cases x0 with
  | none =>
    subst hx
    simp only [py, hA, hb, a1, a2, a3, a4, a5, a6, builtin_zeros_vec, Equiv.apply_symm_apply, if_false, if_true]
    exact hh
  | some x =>
    obtain ⟨lx, rfl, hlx⟩ := hx
    simp only [py, hA, hb, hlx, a1, a2, a3, a4, a5, a6, Equiv.apply_symm_apply, if_false, if_true]
    exact hh

/-- Missing arguments: no starting point, the tolerance 1e-5, a thousand passes. -/
theorem call_conjugate_gradient_defaults (st : St W) (vA vb vx vt : Val) :
    call (mach A ext) (fuel + 2) (.glob "conjugate_gradient") [vA, vb] st = call (mach A ext) (fuel + 2) (.glob "conjugate_gradient") [vA, vb, .none, .num (literal A 1 5 false), .int 1000] st
    ∧ call (mach A ext) (fuel + 2) (.glob "conjugate_gradient") [vA, vb, vx] st = call (mach A ext) (fuel + 2) (.glob "conjugate_gradient") [vA, vb, vx, .num (literal A 1 5 false), .int 1000] st
    ∧ call (mach A ext) (fuel + 2) (.glob "conjugate_gradient") [vA, vb, vx, vt] st = call (mach A ext) (fuel + 2) (.glob "conjugate_gradient") [vA, vb, vx, vt, .int 1000] st := by
  have e : ∀ args, call (mach A ext) (fuel + 2) (.glob "conjugate_gradient") args st = runFun (mach A ext) (call (mach A ext) (fuel + 1)) Source.ConjugateGradient.conjugate_gradient args st :=
    fun args => by simp only [call, show (mach A ext).prog.fun? "conjugate_gradient" = _ from fun_conjugate_gradient]
  simp only [e]
  exact ⟨rfl, rfl, rfl⟩

end Ellalgo.Py
