import Verif.Props.PowerConverge
import Verif.Py.Refine.Power

/-!
# C110: the text of `experiment/power_iteration.py`

A program makes the options with `Options(max_iters, tolerance)` and calls one of the four functions with a square matrix and a vector of its size.
-/

set_option linter.unusedSimpArgs false

namespace Ellalgo.Py

open Matrix Ellalgo.Spec

variable {W : Type} {n : ℕ} {ext : ℕ → String → List Val → M W Val} {fuel : ℕ} {st : St W} {lA lx : ℕ} {A : Mat (n + 1)} {x : Vec (n + 1)} {N : ℕ} {vt : Val} {tol : ℝ}

/-- The four functions: their name in the text, the run, the test that stops it, and what the array of the caller holds in the end, given `x`, `max_iters` and the vector returned. -/
inductive PowerText : String → (Mat (n + 1) → Vec (n + 1) → PowerOptions → Except Fault (PowerResult (n + 1))) → (Mat (n + 1) → Vec (n + 1) → ℝ → ℕ → Prop) → (Vec (n + 1) → ℕ → Vec (n + 1) → Vec (n + 1)) → Prop
  | one : PowerText "power_iteration" powerIteration stopVec fun x _ _ => unitVec x
  | two : PowerText "power_iteration2" powerIteration2 stopRay fun _ _ y => y
  | three : PowerText "power_iteration3" powerIteration3 stopRay fun _ _ y => y
  | four : PowerText "power_iteration4" powerIteration4 stopVec1 fun x N y => if N = 0 then y else unitVec1 x

theorem PowerText.variant {f : String} {run : Mat (n + 1) → Vec (n + 1) → PowerOptions → Except Fault (PowerResult (n + 1))} {stop : Mat (n + 1) → Vec (n + 1) → ℝ → ℕ → Prop}
    {left : Vec (n + 1) → ℕ → Vec (n + 1) → Vec (n + 1)} (h : PowerText f run stop left) : PowerVariant run stop := by
  cases h
  · exact .one
  · exact .two
  · exact .three
  · exact .four

theorem PowerText.spec {f : String} {run : Mat (n + 1) → Vec (n + 1) → PowerOptions → Except Fault (PowerResult (n + 1))} {stop : Mat (n + 1) → Vec (n + 1) → ℝ → ℕ → Prop}
    {left : Vec (n + 1) → ℕ → Vec (n + 1) → Vec (n + 1)} (h : PowerText f run stop left) (A : Mat (n + 1)) (x : Vec (n + 1)) (N : ℕ) (tol : ℝ) :
    PowerSpec A x N (stop A x tol) (left x N) (run A x ⟨N, tol⟩) := by
  cases h
  · exact C85_power_iteration A x ⟨N, tol⟩
  · exact C85_power_iteration2 A x ⟨N, tol⟩
  · exact C85_power_iteration3 A x ⟨N, tol⟩
  · exact C85_power_iteration4 A x ⟨N, tol⟩

/-- `Options(N, t)` and then `f(A, x, options)`. -/
noncomputable def powerRun (ext : ℕ → String → List Val → M W Val) (fuel : ℕ) (f : String) (lA lx N : ℕ) (vt : Val) : M W Val :=
  M.bind (call (pmach ext) (fuel + 3) (.glob "Options") [.int N, vt]) fun o => call (pmach ext) (fuel + 3) (.glob f) [.ref lA, .ref lx, o]

/-- The matrix and the vector are on the heap. -/
structure PowerHeap (st : St W) (lA lx : ℕ) (A : Mat (n + 1)) (x : Vec (n + 1)) : Prop where
  mat : st.heap lA = some (.mat (n + 1) (n + 1) (Matrix.of.symm A))
  vec : st.heap lx = some (.vec (n + 1) x)
  ltA : lA < st.next
  ltx : lx < st.next

/-- `Options(N, t)`. -/
theorem call_options : ∃ st', call (pmach ext) (fuel + 3) (.glob "Options") [.int N, vt] st = .ok (.ref st.next) st' ∧ PowOpt st' st.next N vt ∧ Frame (fun _ => False) st st' ∧ st.next < st'.next := by
  rw [call_class (k := Source.PowerIteration.Options) (f := Source.PowerIteration.Options.__init__) rfl rfl rfl rfl]
  simp only [Source.PowerIteration.Options.__init__]
  simp only [py]
  exact ⟨_, rfl, ⟨(Env.empty.set "max_iters" (.int N)).set "tolerance" vt, by simp only [py], by simp only [py], by simp only [py]⟩, by frame_tac, by simp only [py]; omega⟩

theorem PowOut.mono {k l : ℕ} {st st0 : St W} {r : Except Fault (PowerResult k)} {res : Res W Val} (h : PowOut st0 l r res) (hf : Frame (· = l) st st0) : PowOut st l r res := by
  cases r with
  | error f =>
    obtain ⟨st', h1, h2⟩ := h
    exact ⟨st', h1, hf.trans h2⟩
  | ok r =>
    obtain ⟨st', k, h1, h2, h3, h4, h5⟩ := h
    exact ⟨st', k, h1, h2.imp_right fun hh => hf.next.trans hh, h3, h4, hf.trans h5⟩

variable {f : String} {run : Mat (n + 1) → Vec (n + 1) → PowerOptions → Except Fault (PowerResult (n + 1))} {stop : Mat (n + 1) → Vec (n + 1) → ℝ → ℕ → Prop}
  {left : Vec (n + 1) → ℕ → Vec (n + 1) → Vec (n + 1)}

theorem power_run (hv : PowerText f run stop left) (ht : vt.toReal = some tol) (h : PowerHeap st lA lx A x) :
    PowOut st lx (run A x ⟨N, tol⟩) (powerRun ext fuel f lA lx N vt st) := by
  obtain ⟨st', h1, h2, h3, h4⟩ := call_options (ext := ext) (fuel := fuel) (st := st) (N := N) (vt := vt)
  have ha : PowArgs st' lA st.next lx A N vt x :=
    ⟨(h3.same _ h.ltA not_false).trans h.mat, (h3.same _ h.ltx not_false).trans h.vec, h2, h.ltA.trans h4, h.ltx.trans h4, h4⟩
  simp only [powerRun, bind_apply, h1, rbind_ok]
  refine PowOut.mono ?_ (h3.mono fun _ hh => hh.elim)
  cases hv
  · exact call_power1 ht ha
  · exact call_power2 ht ha
  · exact call_power3 ht ha
  · exact call_power4 ht ha

/-- The run returned the vector `y` with `ld` and `k`; the array of the caller holds `left y`; nothing else that was there has changed. -/
def PowerEnd (st : St W) (lx : ℕ) (y : Vec (n + 1)) (ld : ℝ) (k : ℕ) (left : Vec (n + 1) → Vec (n + 1)) (res : Res W Val) : Prop :=
  ∃ st' l, res = .ok (.tuple [.ref l, .num ld, .int k]) st' ∧ (l = lx ∨ st.next ≤ l) ∧ st'.heap l = some (.vec (n + 1) y) ∧ st'.heap lx = some (.vec (n + 1) (left y)) ∧ Frame (· = lx) st st'

/-- **C110.** Every run of the text, on every matrix and start vector, for all options: it ends in one of three ways, told apart by the powers `Aᵏx` alone. It returns the unit vector in the direction of
`Aᵏ⁺¹x` for the first `k < max_iters` at which the stopping test holds, with its Rayleigh quotient and `k`; or, if the test never holds, the same for `k + 1 = max_iters`, with `max_iters`; or, if one of the powers it
would have to normalise is zero, it raises `ZeroDivisionError`. Nothing but the array of the caller is changed. -/
theorem C110_text (hv : PowerText f run stop left) (ht : vt.toReal = some tol) (h : PowerHeap st lA lx A x) :
    (∃ k < N, (∀ j ≤ k + 1, powDir A x j ≠ 0) ∧ stop A x tol k ∧ (∀ j < k, ¬ stop A x tol j)
      ∧ PowerEnd st lx (unitVec (powDir A x (k + 1))) (rayleigh A (powDir A x (k + 1))) k (left x N) (powerRun ext fuel f lA lx N vt st))
    ∨ ((∀ j ≤ N, powDir A x j ≠ 0) ∧ (∀ j < N, ¬ stop A x tol j)
      ∧ PowerEnd st lx (unitVec (powDir A x N)) (rayleigh A (powDir A x N)) N (left x N) (powerRun ext fuel f lA lx N vt st))
    ∨ (∃ k ≤ N, powDir A x k = 0 ∧ (∀ j, j + 1 < k → ¬ stop A x tol j) ∧ ∃ st', powerRun ext fuel f lA lx N vt st = .exc "ZeroDivisionError" st' ∧ Frame (· = lx) st st') := by
  have hr := power_run (ext := ext) (fuel := fuel) (N := N) hv ht h
  rcases hv.spec A x N tol with ⟨k, hk, h1, h2, h3, e⟩ | ⟨h1, h2, e⟩ | ⟨k, hk, h1, h2, e⟩ <;> rw [e] at hr
  · exact .inl ⟨k, hk, h1, h2, h3, hr⟩
  · exact .inr (.inl ⟨h1, h2, hr⟩)
  · exact .inr (.inr ⟨k, hk, h1, h2, hr⟩)

/-- A run that returns a vector, a number and a count: the vector has length one, the number is its Rayleigh quotient. -/
theorem power_ok (hv : PowerText f run stop left) (ht : vt.toReal = some tol) (h : PowerHeap st lA lx A x) {v : Val} {st' : St W} (hr : powerRun ext fuel f lA lx N vt st = .ok v st') :
    ∃ r, run A x ⟨N, tol⟩ = .ok r ∧ ∃ l, v = .tuple [.ref l, .num r.ld, .int r.niter] ∧ st'.heap l = some (.vec (n + 1) r.x) := by
  have hh := power_run (ext := ext) (fuel := fuel) (N := N) hv ht h
  rw [hr] at hh
  rcases hrun : run A x ⟨N, tol⟩ with f | r <;> rw [hrun] at hh
  · obtain ⟨_, h1, -⟩ := hh
    cases h1
  · obtain ⟨st1, l, h1, -, h2, -⟩ := hh
    cases h1
    exact ⟨r, rfl, l, rfl, h2⟩

/-- **C110.** Whatever the text of one of the four functions returns: a vector of length one, its Rayleigh quotient, and a count of at most `max_iters`. -/
theorem C110_unit (hv : PowerText f run stop left) (ht : vt.toReal = some tol) (h : PowerHeap st lA lx A x) {v : Val} {st' : St W} (hr : powerRun ext fuel f lA lx N vt st = .ok v st') :
    ∃ l k y, v = .tuple [.ref l, .num (y ⬝ᵥ (A *ᵥ y)), .int (k : ℕ)] ∧ st'.heap l = some (.vec (n + 1) y) ∧ y ⬝ᵥ y = 1 ∧ k ≤ N := by
  obtain ⟨r, h1, l, rfl, h2⟩ := power_ok hv ht h hr
  obtain ⟨h3, h4⟩ := C86_unit_and_rayleigh hv.variant A x _ r h1
  refine ⟨l, r.niter, r.x, by rw [h4], h2, h3, ?_⟩
  exact (hv.variant.ok h1).2.2.2.1

/-- **C110.** For a symmetric matrix with `‖Ay‖ ≤ L‖y‖`: if the text of `power_iteration` returns with fewer than `max_iters` passes, the number is within `L tol` of an eigenvalue. -/
theorem C110_eigenvalue (ht : vt.toReal = some tol) (h : PowerHeap st lA lx A x) (hA : A.IsSymm) {l : ℕ} {ld : ℝ} {k : ℕ} {st' : St W}
    (hr : powerRun ext fuel "power_iteration" lA lx N vt st = .ok (.tuple [.ref l, .num ld, .int k]) st') (hk : k < N)
    (L : ℝ) (hL0 : 0 ≤ L) (hL : ∀ y : Vec (n + 1), (A *ᵥ y) ⬝ᵥ (A *ᵥ y) ≤ L ^ 2 * (y ⬝ᵥ y)) :
    ∃ μ : ℝ, ∃ v : Vec (n + 1), v ≠ 0 ∧ A *ᵥ v = μ • v ∧ |μ - ld| ≤ L * tol := by
  obtain ⟨r, h1, l', h2, -⟩ := power_ok .one ht h hr
  simp only [Val.tuple.injEq, List.cons.injEq, Val.num.injEq, Val.int.injEq, Nat.cast_inj, and_true] at h2
  obtain ⟨-, rfl, rfl⟩ := h2
  exact C86_eigenvalue A hA x _ r h1 hk L hL0 hL

/-- **C110.** The same for `power_iteration4`, within `√n L tol`. -/
theorem C110_eigenvalue4 (ht : vt.toReal = some tol) (h : PowerHeap st lA lx A x) (hA : A.IsSymm) {l : ℕ} {ld : ℝ} {k : ℕ} {st' : St W}
    (hr : powerRun ext fuel "power_iteration4" lA lx N vt st = .ok (.tuple [.ref l, .num ld, .int k]) st') (hk : k < N)
    (L : ℝ) (hL0 : 0 ≤ L) (hL : ∀ y : Vec (n + 1), (A *ᵥ y) ⬝ᵥ (A *ᵥ y) ≤ L ^ 2 * (y ⬝ᵥ y)) :
    ∃ μ : ℝ, ∃ v : Vec (n + 1), v ≠ 0 ∧ A *ᵥ v = μ • v ∧ |μ - ld| ≤ Real.sqrt (n + 1 : ℕ) * (L * tol) := by
  obtain ⟨r, h1, l', h2, -⟩ := power_ok .four ht h hr
  simp only [Val.tuple.injEq, List.cons.injEq, Val.num.injEq, Val.int.injEq, Nat.cast_inj, and_true] at h2
  obtain ⟨-, rfl, rfl⟩ := h2
  exact C86_eigenvalue4 A hA x _ r h1 hk L hL0 hL

/-- **C110.** For a symmetric positive semidefinite matrix: if the text of `power_iteration2` or `power_iteration3` returns with fewer than `max_iters` passes, the number is within `√(ld tol) + tol` of an eigenvalue. -/
theorem C110_eigenvalue23 (hf : f = "power_iteration2" ∨ f = "power_iteration3") (ht : vt.toReal = some tol) (h : PowerHeap st lA lx A x) (hA : A.IsSymm) (hq : QuadNonneg A) {l : ℕ} {ld : ℝ} {k : ℕ} {st' : St W}
    (hr : powerRun ext fuel f lA lx N vt st = .ok (.tuple [.ref l, .num ld, .int k]) st') (hk : k < N) :
    ∃ μ : ℝ, ∃ v : Vec (n + 1), v ≠ 0 ∧ A *ᵥ v = μ • v ∧ |μ - ld| ≤ Real.sqrt (ld * tol) + tol := by
  rcases hf with rfl | rfl
  · obtain ⟨r, h1, l', h2, -⟩ := power_ok .two ht h hr
    simp only [Val.tuple.injEq, List.cons.injEq, Val.num.injEq, Val.int.injEq, Nat.cast_inj, and_true] at h2
    obtain ⟨-, rfl, rfl⟩ := h2
    exact C86_eigenvalue23 .two rfl A hA hq x _ r h1 hk
  · obtain ⟨r, h1, l', h2, -⟩ := power_ok .three ht h hr
    simp only [Val.tuple.injEq, List.cons.injEq, Val.num.injEq, Val.int.injEq, Nat.cast_inj, and_true] at h2
    obtain ⟨-, rfl, rfl⟩ := h2
    exact C86_eigenvalue23 .three rfl A hA hq x _ r h1 hk

/-- **C110.** Not stopped by the tolerance, the text of each of the four functions finds the largest eigenvalue `lam > 0` of a positive semidefinite matrix: if `v` is an eigenvector for it with `vᵀx ≠ 0` and
`(2 max_iters + 1) ε ≥ ln(vᵀv xᵀx / (vᵀx)²)`, the number returned lies in `[(1 - ε) lam, lam]`. -/
theorem C110_finds_largest (hv : PowerText f run stop left) (ht : vt.toReal = some tol) (h : PowerHeap st lA lx A x) (hA : A.IsSymm) (hq : QuadNonneg A) (v : Vec (n + 1)) (lam : ℝ) (hlam0 : 0 < lam)
    (hlam : A *ᵥ v = lam • v) (htop : ∀ y : Vec (n + 1), y ⬝ᵥ (A *ᵥ y) ≤ lam * (y ⬝ᵥ y)) (hvx : v ⬝ᵥ x ≠ 0) (htol : tol < 0)
    (ε : ℝ) (hε : ε ≤ 1) (hN : Real.log ((v ⬝ᵥ v) * (x ⬝ᵥ x) / (v ⬝ᵥ x) ^ 2) ≤ (2 * N + 1) * ε) :
    ∃ st' l ld k, powerRun ext fuel f lA lx N vt st = .ok (.tuple [.ref l, .num ld, .int (k : ℕ)]) st' ∧ (1 - ε) * lam ≤ ld ∧ ld ≤ lam := by
  obtain ⟨r, h1, h2⟩ := C87_finds_largest hv.variant A hA hq x v lam hlam0 hlam htop hvx ⟨N, tol⟩ htol ε hε hN
  have hh := power_run (ext := ext) (fuel := fuel) (N := N) hv ht h
  rw [h1] at hh
  obtain ⟨st', l, h3, -⟩ := hh
  exact ⟨st', l, r.ld, r.niter, h3, h2⟩

/-- **C110.** `power_iteration2` and `power_iteration3` are the same function: same result, same contents of the array, or the same exception. -/
theorem C110_variants_agree (ht : vt.toReal = some tol) (h : PowerHeap st lA lx A x) :
    (∃ (y : Vec (n + 1)) (ld : ℝ) (k : ℕ), PowerEnd st lx y ld k id (powerRun ext fuel "power_iteration2" lA lx N vt st) ∧ PowerEnd st lx y ld k id (powerRun ext fuel "power_iteration3" lA lx N vt st))
    ∨ ∃ s2 s3, powerRun ext fuel "power_iteration2" lA lx N vt st = .exc "ZeroDivisionError" s2 ∧ powerRun ext fuel "power_iteration3" lA lx N vt st = .exc "ZeroDivisionError" s3 := by
  have h2 := power_run (ext := ext) (fuel := fuel) (N := N) .two ht h
  have h3 := power_run (ext := ext) (fuel := fuel) (N := N) .three ht h
  rw [C85_variants_agree] at h3
  rcases PowerText.two.spec A x N tol with ⟨k, -, -, -, -, e⟩ | ⟨-, -, e⟩ | ⟨k, -, -, -, e⟩ <;> rw [e] at h2 h3
  · exact .inl ⟨_, _, _, h2, h3⟩
  · exact .inl ⟨_, _, _, h2, h3⟩
  · obtain ⟨s2, e2, -⟩ := h2
    obtain ⟨s3, e3, -⟩ := h3
    exact .inr ⟨s2, s3, e2, e3⟩

/-- A heap with the matrix and the vector, as `PowerHeap` asks for; the hypotheses on the matrix are met by `diag12` and `(1, 1)` (example after C87). -/
example : PowerHeap (n := 1) (⟨fun l => if l = 0 then some (.mat 2 2 (Matrix.of.symm diag12)) else if l = 1 then some (.vec 2 ![1, 1]) else none, 2, ()⟩ : St Unit) 0 1 diag12 ![1, 1] := by
  constructor <;> simp

end Ellalgo.Py
