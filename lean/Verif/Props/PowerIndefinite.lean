import Verif.Props.RoundedPower3
import Verif.Props.SourcePower

/-!
# C133: for matrices that are not semidefinite `power_iteration2` and `power_iteration3` may stop far from every eigenvalue
-/

namespace Ellalgo

open Finset Matrix Spec

/-- The matrix that swaps the two components and multiplies by `a`; its eigenvalues are `a` and `-a`. -/
def swapMat (a : ℝ) : Mat 2 := !![0, a; a, 0]

theorem swapMat_symm (a : ℝ) : (swapMat a).IsSymm := by
  ext i j
  fin_cases i <;> fin_cases j <;> rfl

theorem swapMat_eigenvalue {a μ : ℝ} (ha : 0 < a) {v : Vec 2} (hv : v ≠ 0) (h : swapMat a *ᵥ v = μ • v) : |μ| = a := by
  have h0 : a * v 1 = μ * v 0 := by simpa [swapMat, mulVec, dotProduct, Fin.sum_univ_two] using congrFun h 0
  have h1 : a * v 0 = μ * v 1 := by simpa [swapMat, mulVec, dotProduct, Fin.sum_univ_two] using congrFun h 1
  have e0 : (μ ^ 2 - a ^ 2) * v 0 = 0 := by linear_combination (-μ) * h0 - a * h1
  have e1 : (μ ^ 2 - a ^ 2) * v 1 = 0 := by linear_combination (-a) * h0 - μ * h1
  have hs : μ ^ 2 = a ^ 2 := by
    by_contra hne
    refine hv (funext fun i => ?_)
    have hne' : μ ^ 2 - a ^ 2 ≠ 0 := sub_ne_zero.mpr hne
    fin_cases i
    · exact (mul_eq_zero.mp e0).resolve_left hne'
    · exact (mul_eq_zero.mp e1).resolve_left hne'
  rw [← abs_of_pos ha]
  exact (sq_eq_sq_iff_abs_eq_abs μ a).mp hs

/-- An arithmetic that adds two products from first to last and has `0`, `1`, `a` and `a * a` exactly. -/
structure SwapExact (A : Arith) (a : ℝ) : Prop where
  dot : ∀ x y : Vec 2, A.dot x y = A.rnd (A.rnd (0 + A.rnd (x 0 * y 0)) + A.rnd (x 1 * y 1))
  mv : ∀ (M : Mat 2) (x : Vec 2) (i : Fin 2), A.mv M x i = A.rnd (A.rnd (0 + A.rnd (M i 0 * x 0)) + A.rnd (M i 1 * x 1))
  zero : A.rnd 0 = 0
  one : A.rnd 1 = 1
  self : A.rnd a = a
  sq : A.rnd (a * a) = a * a

section
variable {A : Arith} {a : ℝ} (h : SwapExact A a) (ha : 0 < a)
include h

theorem SwapExact.mv_up (b : ℝ) (hb : A.rnd (a * b) = a * b) : A.mv (swapMat a) ![0, b] = ![a * b, 0] := by
  funext i
  rw [h.mv]
  fin_cases i <;> simp [swapMat, h.zero, hb]

theorem SwapExact.mv_down (b : ℝ) (hb : A.rnd (a * b) = a * b) : A.mv (swapMat a) ![b, 0] = ![0, a * b] := by
  funext i
  rw [h.mv]
  fin_cases i <;> simp [swapMat, h.zero, hb]

theorem SwapExact.cross (b c : ℝ) : A.dot ![0, b] ![c, 0] = 0 := by rw [h.dot]; simp [h.zero]

theorem SwapExact.cross' (b c : ℝ) : A.dot ![b, 0] ![0, c] = 0 := by rw [h.dot]; simp [h.zero]

include ha in
theorem SwapExact.unit_a : A.arrUnit ![0, a] = .ok ![0, 1] := by
  have e : A.rnd (Real.sqrt (A.dot ![0, a] ![0, a])) = a := by
    rw [h.dot]
    simp only [cons_val_zero, cons_val_one, mul_zero, h.zero, add_zero, zero_add, h.sq]
    rw [Real.sqrt_mul_self ha.le, h.self]
  unfold Arith.arrUnit
  simp only [e]
  rw [if_neg ha.ne']
  congr 1
  funext i
  fin_cases i
  · show A.rnd (0 / a) = 0
    rw [zero_div, h.zero]
  · show A.rnd (a / a) = 1
    rw [div_self ha.ne', h.one]

theorem SwapExact.unit_one : A.arrUnit ![1, 0] = .ok ![1, 0] := by
  have e : A.rnd (Real.sqrt (A.dot ![1, 0] ![1, 0])) = 1 := by
    rw [h.dot]
    simp [h.zero, h.one]
  unfold Arith.arrUnit
  simp only [e]
  rw [if_neg one_ne_zero]
  congr 1
  funext i
  fin_cases i
  · show A.rnd (1 / 1) = 1
    rw [div_one, h.one]
  · show A.rnd (0 / 1) = 0
    rw [zero_div, h.zero]

include ha in
theorem SwapExact.run2 {o : PowerOptions} (ht : 0 ≤ o.tolerance) (hN : 0 < o.maxIters) : A.powerIteration2 (swapMat a) ![1, 0] o = .ok ⟨![0, 1], 0, 0, ![0, 1]⟩ := by
  obtain ⟨k, hk⟩ := Nat.exists_eq_succ_of_ne_zero hN.ne'
  have m1 := h.mv_down 1 (by rw [mul_one, h.self])
  have m2 := h.mv_up 1 (by rw [mul_one, h.self])
  rw [mul_one] at m1 m2
  rw [Arith.powerIteration2, h.unit_one, hk]
  simp only [m1, h.cross']
  rw [Arith.powerLoop2, h.unit_a ha]
  simp only [m2, h.cross]
  rw [if_pos (by simpa [Arith.sub, h.zero] using ht)]

include ha in
theorem SwapExact.run3 {o : PowerOptions} (ht : 0 ≤ o.tolerance) (hN : 0 < o.maxIters) : A.powerIteration3 (swapMat a) ![1, 0] o = .ok ⟨![0, 1], 0, 0, ![0, 1]⟩ := by
  obtain ⟨k, hk⟩ := Nat.exists_eq_succ_of_ne_zero hN.ne'
  have m1 := h.mv_down 1 (by rw [mul_one, h.self])
  have m2 := h.mv_up 1 (by rw [mul_one, h.self])
  have m3 := h.mv_up a h.sq
  rw [mul_one] at m1 m2
  have hp : ∀ d : ℝ, d ≠ 0 → A.pdiv 0 d = .ok 0 := fun d hd => by
    unfold Arith.pdiv Arith.div
    rw [if_neg hd, zero_div, h.zero]
  have d1 : A.dot ![1, 0] ![1, 0] = 1 := by rw [h.dot]; simp [h.zero, h.one]
  have da : A.dot ![0, a] ![0, a] = a * a := by rw [h.dot]; simp [h.zero, h.sq]
  unfold Arith.powerIteration3
  simp only [m1, h.cross', d1, hp 1 one_ne_zero, hk]
  rw [Arith.powerLoop3]
  simp only [da, h.unit_a ha, m2, m3, h.cross, hp _ (mul_pos ha ha).ne']
  have hs : |A.sub 0 0| ≤ o.tolerance := by simpa [Arith.sub, h.zero] using ht
  rw [if_pos hs, if_pos hs]
  exact ite_self _

end

theorem swapExact_exact (a : ℝ) : SwapExact Arith.exact a where
  dot x y := by simp [Arith.exact, dotProduct, Fin.sum_univ_two]
  mv M x i := by simp [Arith.exact, mulVec, dotProduct, Fin.sum_univ_two]
  zero := rfl
  one := rfl
  self := rfl
  sq := rfl

theorem pow2_rounded {p : ℕ} (hp : 0 < p) (e : ℤ) : roundBits p (2 ^ e) = 2 ^ e := by
  simpa using roundBits_exact (p := p) 1 e (by simpa using one_lt_pow₀ (one_lt_two (α := ℝ)) hp.ne')

theorem swapExact_ieee {p : ℕ} (hp : 0 < p) (e : ℤ) : SwapExact (Arith.ieee p) (2 ^ e) where
  dot x y := by simp [Arith.ieee, seqDot, Fin.foldl_succ, Fin.foldl_zero]
  mv M x i := by simp [Arith.ieee, seqDot, Fin.foldl_succ, Fin.foldl_zero]
  zero := roundBits_zero p
  one := by have := pow2_rounded hp 0; rwa [zpow_zero] at this
  self := pow2_rounded hp e
  sq := by rw [← zpow_add₀ two_ne_zero]; exact pow2_rounded hp (e + e)

/-- **C133.** In exact arithmetic, for every `a > 0`, tolerance and positive `max_iters`: on the symmetric matrix `[[0, a], [a, 0]]` from `[1, 0]` both functions report convergence in pass 0 with the value 0, and every eigenvalue is at distance `a`. -/
theorem C133_exact {a : ℝ} (ha : 0 < a) {o : PowerOptions} (ht : 0 ≤ o.tolerance) (hN : 0 < o.maxIters) :
    (swapMat a).IsSymm ∧ powerIteration2 (swapMat a) ![1, 0] o = .ok ⟨![0, 1], 0, 0, ![0, 1]⟩ ∧ powerIteration3 (swapMat a) ![1, 0] o = .ok ⟨![0, 1], 0, 0, ![0, 1]⟩ ∧
    ∀ (μ : ℝ) (v : Vec 2), v ≠ 0 → swapMat a *ᵥ v = μ • v → |μ - 0| = a := by
  refine ⟨swapMat_symm a, ?_, ?_, fun μ v hv h => by rw [sub_zero]; exact swapMat_eigenvalue ha hv h⟩
  · rw [← Arith.exact_powerIteration2]; exact (swapExact_exact a).run2 ha ht hN
  · rw [← Arith.exact_powerIteration3]; exact (swapExact_exact a).run3 ha ht hN

/-- **C133** for machine numbers with any positive number of bits and `a` a power of two. -/
theorem C133_bits {p : ℕ} (hp : 0 < p) (e : ℤ) {o : PowerOptions} (ht : 0 ≤ o.tolerance) (hN : 0 < o.maxIters) :
    (swapMat (2 ^ e)).IsSymm ∧ (Arith.ieee p).powerIteration2 (swapMat (2 ^ e)) ![1, 0] o = .ok ⟨![0, 1], 0, 0, ![0, 1]⟩ ∧ (Arith.ieee p).powerIteration3 (swapMat (2 ^ e)) ![1, 0] o = .ok ⟨![0, 1], 0, 0, ![0, 1]⟩ ∧
    ∀ (μ : ℝ) (v : Vec 2), v ≠ 0 → swapMat (2 ^ e) *ᵥ v = μ • v → |μ - 0| = 2 ^ e := by
  have ha : (0 : ℝ) < 2 ^ e := zpow_pos two_pos e
  exact ⟨swapMat_symm _, (swapExact_ieee hp e).run2 ha ht hN, (swapExact_ieee hp e).run3 ha ht hN, fun μ v hv h => by rw [sub_zero]; exact swapMat_eigenvalue ha hv h⟩

/-- **C133** for the text of the two functions, in exact arithmetic: the number returned is 0 in pass 0. -/
theorem Py.C133_text {W : Type} {ext : ℕ → String → List Py.Val → Py.M W Py.Val} {fuel : ℕ} {st : Py.St W} {lA lx N : ℕ} {vt : Py.Val} {tol a : ℝ} {f : String} (hf : f = "power_iteration2" ∨ f = "power_iteration3") (ht : vt.toReal = some tol) (ha : 0 < a)
    (h : Py.PowerHeap st lA lx (swapMat a) ![1, 0]) (ht0 : 0 ≤ tol) (hN : 0 < N) :
    ∃ st' l, Py.powerRun ext fuel f lA lx N vt st = .ok (.tuple [.ref l, .num 0, .int 0]) st' ∧ ∀ (μ : ℝ) (v : Vec 2), v ≠ 0 → swapMat a *ᵥ v = μ • v → |μ - 0| = a := by
  obtain ⟨-, e2, e3, e4⟩ := C133_exact ha (o := ⟨N, tol⟩) ht0 hN
  rcases hf with rfl | rfl
  · have hh := Py.power_run (ext := ext) (fuel := fuel) (N := N) .two ht h
    rw [e2] at hh
    obtain ⟨st', l, h3, -⟩ := hh
    exact ⟨st', l, h3, e4⟩
  · have hh := Py.power_run (ext := ext) (fuel := fuel) (N := N) .three ht h
    rw [e3] at hh
    obtain ⟨st', l, h3, -⟩ := hh
    exact ⟨st', l, h3, e4⟩

/-- A heap as `C133_text` asks for. -/
example : Py.PowerHeap (n := 1) (⟨fun l => if l = 0 then some (.mat 2 2 (Matrix.of.symm (swapMat 3))) else if l = 1 then some (.vec 2 ![1, 0]) else none, 2, ()⟩ : Py.St Unit) 0 1 (swapMat 3) ![1, 0] := by
  constructor <;> simp

/-- The default options and double precision meet the hypotheses; the matrix has eigenvectors. -/
example : (Arith.ieee 53).powerIteration2 (swapMat (2 ^ (10 : ℤ))) ![1, 0] ⟨2000, 1 / 10 ^ 9⟩ = .ok ⟨![0, 1], 0, 0, ![0, 1]⟩ ∧ (![1, 1] : Vec 2) ≠ 0 ∧ swapMat 3 *ᵥ ![1, 1] = (3 : ℝ) • ![1, 1] := by
  refine ⟨(C133_bits (by norm_num) 10 (by norm_num) (by norm_num)).2.1, fun h => by simpa using congrFun h 0, ?_⟩
  funext i
  fin_cases i <;> simp [swapMat, mulVec, dotProduct, Fin.sum_univ_two]

end Ellalgo
