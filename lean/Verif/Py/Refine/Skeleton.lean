import Verif.Py.Refine.LdltMgr
import Verif.Model.Skeleton

/-!
# The text of `skeleton.py`, function `fib`, computes what `Model/Skeleton` says
-/

set_option linter.unusedSimpArgs false

namespace Ellalgo.Py

variable {W : Type} {A : Arith} {ext : ℕ → String → List Val → M W Val} {fuel : ℕ}

open Classical in
theorem cmp_gt_int {st : St W} (a b : ℤ) : cmpOp .gt (.int a) (.int b) st = .ok (.bool (decide (a > b))) st := by
  simp only [cmpOp, Val.toReal, ordOp, gt_iff_lt, Int.cast_lt]; congr

/-- The loop turns the pair `(a, b)` into the pair of the model; the state does not change. -/
theorem fib_loop (k : ℕ) (lo a b : ℤ) (st : St W) {env : Env} (ha : env "a" = some (.int a)) (hb : env "b" = some (.int b)) :
    ∃ env', loop (turn (mach A ext) (call (mach A ext) fuel) (.name "_i") (loopBody Source.Skeleton.fib.body)) (intsFrom lo k) env st = .ok (.next env') st
      ∧ env' "a" = some (.int (fibLoop k (a, b)).1) := by
  induction k generalizing lo a b env with
  | zero => exact ⟨env, by simp only [ints_zero, py], ha⟩
  | succ k ih =>
    obtain ⟨env', h1, h2⟩ := ih (lo + 1) b (a + b) (env := ((env.set "_i" (.int lo)).set "a" (.int b)).set "b" (.int (a + b))) (by simp only [py]) (by simp only [py])
    refine ⟨env', ?_, h2⟩
    rw [ints_succ, ← h1]
    simp only [loopBody, Source.Skeleton.fib, py, ha, hb]

/-- `fib(n)`. -/
theorem call_fib (st : St W) (n : ℤ) :
    call (mach A ext) (fuel + 2) (.glob "fib") [.int n] st
      = match pyFib n with
        | .ok a => .ok (.int a) st
        | .error f => .exc (excOf f) st := by
  rw [call_fun fun_fib rfl]
  by_cases h : n > 0
  · obtain ⟨env', h1, h2⟩ := fib_loop (A := A) (ext := ext) (fuel := fuel + 1) (n - 1).toNat 0 1 1 st (env := ((Env.empty.set "n" (.int n)).set "a" (.int 1)).set "b" (.int 1)) (by simp only [py]) (by simp only [py])
    simp only [loopBody, Source.Skeleton.fib] at h1 ⊢
    simp only [py, cmp_gt_int, h, pyFib, if_true, h1, h2]
  · simp only [Source.Skeleton.fib, py, cmp_gt_int, h, pyFib, if_false]
    rfl

end Ellalgo.Py
