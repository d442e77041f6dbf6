import Verif.Props.PowerIndefinite
import Verif.Model.RoundedPower4

/-!
# C134: `power_iteration` and `power_iteration4` may use all passes and return a value far from every eigenvalue
-/

namespace Ellalgo

open Finset Matrix Spec

section
variable {A : Arith} {a : ℝ} (h : SwapExact A a) (h2 : A.rnd 2 = 2) (hn : A.rnd (-1) = -1) (ha : 0 < a)
include h

include ha in
theorem SwapExact.unit_a' : A.arrUnit ![a, 0] = .ok ![1, 0] := by
  have e : A.rnd (Real.sqrt (A.dot ![a, 0] ![a, 0])) = a := by
    rw [h.dot]
    simp only [cons_val_zero, cons_val_one, mul_zero, h.zero, add_zero, zero_add, h.sq]
    rw [Real.sqrt_mul_self ha.le, h.self]
  unfold Arith.arrUnit
  simp only [e]
  rw [if_neg ha.ne']
  congr 1
  funext i
  fin_cases i
  · show A.rnd (a / a) = 1
    rw [div_self ha.ne', h.one]
  · show A.rnd (0 / a) = 0
    rw [zero_div, h.zero]

theorem SwapExact.l1_up (b : ℝ) (hb : 0 ≤ b) (e : A.rnd b = b) : A.normL1 ![0, b] = b := by
  unfold Arith.normL1
  rw [h.dot]
  simp [h.zero, abs_of_nonneg hb, e]

theorem SwapExact.l1_down (b : ℝ) (hb : 0 ≤ b) (e : A.rnd b = b) : A.normL1 ![b, 0] = b := by
  unfold Arith.normL1
  rw [h.dot]
  simp [h.zero, abs_of_nonneg hb, e]

include ha in
theorem SwapExact.div_up : A.arrDiv ![0, a] (A.normL1 ![0, a]) = .ok ![0, 1] := by
  rw [h.l1_up a ha.le h.self]
  unfold Arith.arrDiv
  rw [if_neg ha.ne']
  congr 1
  funext i
  fin_cases i
  · show A.rnd (0 / a) = 0
    rw [zero_div, h.zero]
  · show A.rnd (a / a) = 1
    rw [div_self ha.ne', h.one]

include ha in
theorem SwapExact.div_down : A.arrDiv ![a, 0] (A.normL1 ![a, 0]) = .ok ![1, 0] := by
  rw [h.l1_down a ha.le h.self]
  unfold Arith.arrDiv
  rw [if_neg ha.ne']
  congr 1
  funext i
  fin_cases i
  · show A.rnd (a / a) = 1
    rw [div_self ha.ne', h.one]
  · show A.rnd (0 / a) = 0
    rw [zero_div, h.zero]

theorem SwapExact.div_one : A.arrDiv ![1, 0] (A.normL1 ![1, 0]) = .ok ![1, 0] := by
  rw [h.l1_down 1 zero_le_one h.one]
  unfold Arith.arrDiv
  rw [if_neg one_ne_zero]
  congr 1
  funext i
  fin_cases i
  · show A.rnd (1 / 1) = 1
    rw [_root_.div_one, h.one]
  · show A.rnd (0 / 1) = 0
    rw [zero_div, h.zero]

theorem SwapExact.unit_up : A.arrUnit ![0, 1] = .ok ![0, 1] := by
  have h' : SwapExact A 1 := ⟨h.dot, h.mv, h.zero, h.one, h.one, by rw [mul_one, h.one]⟩
  exact h'.unit_a one_pos

include h2 hn in
/-- The two vectors are at distance 2 from each other and from the opposite of each other, in the sum of absolute values. -/
theorem SwapExact.apart {x y : Vec 2} (hx : (x = ![0, 1] ∧ y = ![1, 0]) ∨ (x = ![1, 0] ∧ y = ![0, 1])) {tol : ℝ} (ht : tol < 2) :
    ¬ (A.normL1 (fun i => A.sub (x i) (y i)) ≤ tol ∨ A.normL1 (fun i => A.add (x i) (y i)) ≤ tol) := by
  have h3 : A.rnd (1 + 1) = 2 := by rw [one_add_one_eq_two, h2]
  have e1 : A.normL1 (fun i => A.sub (x i) (y i)) = 2 := by
    unfold Arith.normL1
    rw [h.dot]
    rcases hx with ⟨rfl, rfl⟩ | ⟨rfl, rfl⟩ <;> simp [Arith.sub, hn, h.one, h3]
  have e2 : A.normL1 (fun i => A.add (x i) (y i)) = 2 := by
    unfold Arith.normL1
    rw [h.dot]
    rcases hx with ⟨rfl, rfl⟩ | ⟨rfl, rfl⟩ <;> simp [Arith.add, h.one, h3]
  rw [e1, e2]
  rintro (h | h) <;> linarith

include h2 hn ha in
theorem SwapExact.loop1 {o : PowerOptions} (ht : o.tolerance < 2) (arg : Vec 2) : ∀ (left niter : ℕ) (x : Vec 2), (x = ![0, 1] ∨ x = ![1, 0]) → ∃ y, A.powerLoop (swapMat a) o arg left niter x = .ok ⟨y, 0, o.maxIters, arg⟩
  | 0, _, x, hx => by
    have m1 := h.mv_down 1 (by rw [mul_one, h.self])
    have m2 := h.mv_up 1 (by rw [mul_one, h.self])
    rcases hx with rfl | rfl
    · exact ⟨_, by rw [Arith.powerLoop, m2, h.cross]⟩
    · exact ⟨_, by rw [Arith.powerLoop, m1, h.cross']⟩
  | left + 1, niter, x, hx => by
    have m1 := h.mv_down 1 (by rw [mul_one, h.self])
    have m2 := h.mv_up 1 (by rw [mul_one, h.self])
    rw [mul_one] at m1 m2
    rcases hx with rfl | rfl
    · rw [Arith.powerLoop, m2, h.unit_a' ha]
      simp only
      rw [if_neg (h.apart h2 hn (.inr ⟨rfl, rfl⟩) ht)]
      exact SwapExact.loop1 ht arg left (niter + 1) _ (.inr rfl)
    · rw [Arith.powerLoop, m1, h.unit_a ha]
      simp only
      rw [if_neg (h.apart h2 hn (.inl ⟨rfl, rfl⟩) ht)]
      exact SwapExact.loop1 ht arg left (niter + 1) _ (.inl rfl)

include h2 hn ha in
theorem SwapExact.loop4 {o : PowerOptions} (ht : o.tolerance < 2) (arg : Vec 2) : ∀ (left niter : ℕ) (x : Vec 2), (x = ![0, 1] ∨ x = ![1, 0]) → ∃ y z, A.powerLoop4 (swapMat a) o arg left niter x = .ok ⟨y, 0, o.maxIters, z⟩
  | 0, _, x, hx => by
    have m1 := h.mv_down 1 (by rw [mul_one, h.self])
    have m2 := h.mv_up 1 (by rw [mul_one, h.self])
    rcases hx with rfl | rfl
    · exact ⟨_, _, by rw [Arith.powerLoop4, h.unit_up]; simp only [m2, h.cross]; rfl⟩
    · exact ⟨_, _, by rw [Arith.powerLoop4, h.unit_one]; simp only [m1, h.cross']; rfl⟩
  | left + 1, niter, x, hx => by
    have m1 := h.mv_down 1 (by rw [mul_one, h.self])
    have m2 := h.mv_up 1 (by rw [mul_one, h.self])
    rw [mul_one] at m1 m2
    rcases hx with rfl | rfl
    · rw [Arith.powerLoop4, m2, h.div_down ha]
      simp only
      rw [if_neg (h.apart h2 hn (.inr ⟨rfl, rfl⟩) ht)]
      exact SwapExact.loop4 ht arg left (niter + 1) _ (.inr rfl)
    · rw [Arith.powerLoop4, m1, h.div_up ha]
      simp only
      rw [if_neg (h.apart h2 hn (.inl ⟨rfl, rfl⟩) ht)]
      exact SwapExact.loop4 ht arg left (niter + 1) _ (.inl rfl)

include h2 hn ha in
theorem SwapExact.stalls {o : PowerOptions} (ht : o.tolerance < 2) :
    (∃ r, A.powerIteration (swapMat a) ![1, 0] o = .ok r ∧ r.ld = 0 ∧ r.niter = o.maxIters) ∧ ∃ r, A.powerIteration4 (swapMat a) ![1, 0] o = .ok r ∧ r.ld = 0 ∧ r.niter = o.maxIters := by
  constructor
  · rw [Arith.powerIteration, h.unit_one]
    obtain ⟨y, e⟩ := h.loop1 h2 hn ha ht ![1, 0] o.maxIters 0 ![1, 0] (.inr rfl)
    exact ⟨_, e, rfl, rfl⟩
  · rw [Arith.powerIteration4, h.div_one]
    obtain ⟨y, z, e⟩ := h.loop4 h2 hn ha ht ![1, 0] o.maxIters 0 ![1, 0] (.inr rfl)
    exact ⟨_, e, rfl, rfl⟩

end

/-- **C134.** In exact arithmetic, for every `a > 0`, `max_iters` and tolerance below 2: on the symmetric matrix `[[0, a], [a, 0]]` from `[1, 0]` both functions use all passes and return the value 0, at distance `a` from every eigenvalue. -/
theorem C134_exact {a : ℝ} (ha : 0 < a) {o : PowerOptions} (ht : o.tolerance < 2) :
    (∃ r, powerIteration (swapMat a) ![1, 0] o = .ok r ∧ r.ld = 0 ∧ r.niter = o.maxIters) ∧ (∃ r, powerIteration4 (swapMat a) ![1, 0] o = .ok r ∧ r.ld = 0 ∧ r.niter = o.maxIters) ∧
    ∀ (μ : ℝ) (v : Vec 2), v ≠ 0 → swapMat a *ᵥ v = μ • v → |μ - 0| = a := by
  have h := (swapExact_exact a).stalls rfl rfl ha ht
  rw [Arith.exact_powerIteration, Arith.exact_powerIteration4] at h
  exact ⟨h.1, h.2, fun μ v hv h => by rw [sub_zero]; exact swapMat_eigenvalue ha hv h⟩

/-- **C134** for machine numbers with any positive number of bits and `a` a power of two. -/
theorem C134_bits {p : ℕ} (hp : 0 < p) (e : ℤ) {o : PowerOptions} (ht : o.tolerance < 2) :
    (∃ r, (Arith.ieee p).powerIteration (swapMat (2 ^ e)) ![1, 0] o = .ok r ∧ r.ld = 0 ∧ r.niter = o.maxIters) ∧ (∃ r, (Arith.ieee p).powerIteration4 (swapMat (2 ^ e)) ![1, 0] o = .ok r ∧ r.ld = 0 ∧ r.niter = o.maxIters) ∧
    ∀ (μ : ℝ) (v : Vec 2), v ≠ 0 → swapMat (2 ^ e) *ᵥ v = μ • v → |μ - 0| = 2 ^ e := by
  have ha : (0 : ℝ) < 2 ^ e := zpow_pos two_pos e
  have h2 : roundBits p 2 = 2 := by have := pow2_rounded hp 1; rwa [zpow_one] at this
  have hn : roundBits p (-1) = -1 := by
    have := roundBits_exact (p := p) (-1) 0 (by simpa using one_lt_pow₀ (one_lt_two (α := ℝ)) hp.ne')
    simpa using this
  have h := (swapExact_ieee hp e).stalls h2 hn ha ht
  exact ⟨h.1, h.2, fun μ v hv h => by rw [sub_zero]; exact swapMat_eigenvalue ha hv h⟩

/-- **C134** for the text of the two functions, in exact arithmetic. -/
theorem Py.C134_text {W : Type} {ext : ℕ → String → List Py.Val → Py.M W Py.Val} {fuel : ℕ} {st : Py.St W} {lA lx N : ℕ} {vt : Py.Val} {tol a : ℝ} {f : String} (hf : f = "power_iteration" ∨ f = "power_iteration4") (ht : vt.toReal = some tol) (ha : 0 < a)
    (h : Py.PowerHeap st lA lx (swapMat a) ![1, 0]) (ht2 : tol < 2) :
    ∃ st' l, Py.powerRun ext fuel f lA lx N vt st = .ok (.tuple [.ref l, .num 0, .int N]) st' ∧ ∀ (μ : ℝ) (v : Vec 2), v ≠ 0 → swapMat a *ᵥ v = μ • v → |μ - 0| = a := by
  obtain ⟨⟨r, e1, e2, e3⟩, ⟨s, f1, f2, f3⟩, e4⟩ := C134_exact ha (o := ⟨N, tol⟩) ht2
  rcases hf with rfl | rfl
  · have hh := Py.power_run (ext := ext) (fuel := fuel) (N := N) .one ht h
    rw [e1] at hh
    obtain ⟨st', l, h3, -⟩ := hh
    rw [e2, e3] at h3
    exact ⟨st', l, h3, e4⟩
  · have hh := Py.power_run (ext := ext) (fuel := fuel) (N := N) .four ht h
    rw [f1] at hh
    obtain ⟨st', l, h3, -⟩ := hh
    rw [f2, f3] at h3
    exact ⟨st', l, h3, e4⟩

/-- The default options and double precision meet the hypotheses. -/
example : ∃ r, (Arith.ieee 53).powerIteration (swapMat (2 ^ (10 : ℤ))) ![1, 0] ⟨2000, 1 / 10 ^ 9⟩ = .ok r ∧ r.ld = 0 ∧ r.niter = 2000 :=
  (C134_bits (by norm_num) 10 (by norm_num)).1

/-- A heap as `C134_text` asks for. -/
example : Py.PowerHeap (n := 1) (⟨fun l => if l = 0 then some (.mat 2 2 (Matrix.of.symm (swapMat 5))) else if l = 1 then some (.vec 2 ![1, 0]) else none, 2, ()⟩ : Py.St Unit) 0 1 (swapMat 5) ![1, 0] := by
  constructor <;> simp

end Ellalgo
