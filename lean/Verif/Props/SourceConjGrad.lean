import Verif.Py.Refine.ConjGrad
import Verif.Props.ConjGrad

/-!
# Properties of the text of `conjugate_gradient.py`
-/

namespace Ellalgo

open Matrix

variable {n : ℕ}

/-- In exact arithmetic nothing but a `ValueError` is raised: once the residual is zero, so is the direction. -/
theorem CGState.loop_raises {m : Mat n} {tol : ℝ} {f : Fault} :
    ∀ (fuel : ℕ) (s : CGState n), s.rr = s.res ⬝ᵥ s.res → (s.res = 0 → s.dir = 0) → s.loop m tol fuel = .error f → f = .valueError
  | 0, s, _, _, hl => by simpa [loop] using hl.symm
  | fuel + 1, s, h1, h2, hl => by
    have hrr : s.dir ⬝ᵥ m *ᵥ s.dir ≠ 0 → s.rr ≠ 0 := fun h h0 => by
      rw [h1, dotProduct_self_eq_zero] at h0
      rw [h2 h0] at h
      simp at h
    rw [loop] at hl
    unfold step at hl
    by_cases hd : s.dir ⬝ᵥ m *ᵥ s.dir = 0
    · rw [if_pos hd] at hl
      simpa using hl.symm
    · rw [if_neg hd] at hl
      dsimp only at hl
      split at hl
      · next g hg =>
        split at hg
        · simp at hg
        · simp [pdiv, hrr hd] at hg
      · simp at hl
      · next s' hg =>
        split at hg
        · simp at hg
        · simp only [pdiv, hrr hd, if_false] at hg
          simp only [Except.ok.injEq, Sum.inr.injEq] at hg
          refine loop_raises fuel s' ?_ ?_ hl
          · rw [← hg]
          · rw [← hg]
            intro h0
            dsimp only at h0 ⊢
            rw [h0]
            simp

theorem conjugateGradient_raises (m : Mat n) (b : Vec n) (x0 : Option (Vec n)) (tol : ℝ) (k : ℕ) {f : Fault} (h : conjugateGradient m b x0 tol k = .error f) : f = .valueError :=
  CGState.loop_raises k _ rfl (fun h => h) h

namespace Py

variable {W : Type} {A : Arith} {ext : ℕ → String → List Val → M W Val} {fuel : ℕ}

/-- The arguments of a call: two to five of them. -/
inductive CGArgs (A : Arith) (st : St W) (m : Mat n) (b : Vec n) : List Val → Option (Vec n) → ℝ → ℤ → Prop
  | two {lA lb} (hA : st.heap lA = some (.mat n n (Matrix.of.symm m))) (ltA : lA < st.next) (hb : st.heap lb = some (.vec n b)) (ltb : lb < st.next) :
    CGArgs A st m b [.ref lA, .ref lb] none (literal A 1 5 false) 1000
  | three {lA lb vx x0} (hA : st.heap lA = some (.mat n n (Matrix.of.symm m))) (ltA : lA < st.next) (hb : st.heap lb = some (.vec n b)) (ltb : lb < st.next) (hx : IsStart st x0 vx) :
    CGArgs A st m b [.ref lA, .ref lb, vx] x0 (literal A 1 5 false) 1000
  | four {lA lb vx x0 vt tol} (hA : st.heap lA = some (.mat n n (Matrix.of.symm m))) (ltA : lA < st.next) (hb : st.heap lb = some (.vec n b)) (ltb : lb < st.next) (hx : IsStart st x0 vx)
      (ht : vt.toReal = some tol) : CGArgs A st m b [.ref lA, .ref lb, vx, vt] x0 tol 1000
  | five {lA lb vx x0 vt tol} (hA : st.heap lA = some (.mat n n (Matrix.of.symm m))) (ltA : lA < st.next) (hb : st.heap lb = some (.vec n b)) (ltb : lb < st.next) (hx : IsStart st x0 vx)
      (ht : vt.toReal = some tol) (k : ℤ) : CGArgs A st m b [.ref lA, .ref lb, vx, vt, .int k] x0 tol k

/-- **C104**, in any arithmetic: the text returns the vector of the model in a new array, or raises the exception of the model. Nothing that the caller has changes: not the matrix, not the right side,
and not the array given as starting point, although the text updates its solution in place. -/
theorem C104_call {st : St W} {m : Mat n} {b : Vec n} {args : List Val} {x0 : Option (Vec n)} {tol : ℝ} {k : ℤ} (h : CGArgs A st m b args x0 tol k) :
    CGOutcome st (A.conjugateGradient m b x0 tol k.toNat) (call (mach A ext) (fuel + 2) (.glob "conjugate_gradient") args st) := by
  cases h with
  | two hA ltA hb ltb =>
    rw [(call_conjugate_gradient_defaults st _ _ .none .none).1]
    exact call_conjugate_gradient rfl 1000 hA ltA hb ltb (show IsStart st none .none from rfl)
  | three hA ltA hb ltb hx =>
    rw [(call_conjugate_gradient_defaults st _ _ _ .none).2.1]
    exact call_conjugate_gradient rfl 1000 hA ltA hb ltb hx
  | four hA ltA hb ltb hx ht =>
    rw [(call_conjugate_gradient_defaults st _ _ _ _).2.2]
    exact call_conjugate_gradient ht 1000 hA ltA hb ltb hx
  | five hA ltA hb ltb hx ht k => exact call_conjugate_gradient ht k hA ltA hb ltb hx

/-- **C104**, in exact arithmetic, for every matrix: a call returns a new array with a residual below the tolerance, or raises `ValueError`; and what the caller has does not change. -/
theorem C104_exact {st : St W} {m : Mat n} {b : Vec n} {args : List Val} {x0 : Option (Vec n)} {tol : ℝ} {k : ℤ} (h : CGArgs Arith.exact st m b args x0 tol k) :
    ∃ st', st'.world = st.world ∧ (∀ l < st.next, st'.heap l = st.heap l) ∧
      (call (mach Arith.exact ext) (fuel + 2) (.glob "conjugate_gradient") args st = .exc "ValueError" st'
      ∨ ∃ l x, call (mach Arith.exact ext) (fuel + 2) (.glob "conjugate_gradient") args st = .ok (.ref l) st' ∧ st.next ≤ l ∧ st'.heap l = some (.vec n x) ∧ Spec.residualNorm m b x < tol) := by
  have hc := C104_call (ext := ext) (fuel := fuel) h
  rw [Arith.exact_conjugateGradient] at hc
  rcases hr : conjugateGradient m b x0 tol k.toNat with f | x <;> rw [hr] at hc
  · obtain ⟨st', h1, h2⟩ := hc
    rw [conjugateGradient_raises _ _ _ _ _ hr] at h1
    exact ⟨st', h2.world, fun l hl => h2.same l hl fun h => h, .inl h1⟩
  · obtain ⟨st', l, h1, h2, h3, h4⟩ := hc
    exact ⟨st', h4.world, fun l hl => h4.same l hl fun h => h, .inr ⟨l, x, h1, h2, h3, C54_accuracy _ _ _ _ _ _ hr⟩⟩

/-- **C104**, in exact arithmetic, for a symmetric positive definite matrix, a positive tolerance and at least `n` passes: the text raises `ValueError` if and only if the starting point is the solution.
(The text raises on a system that is solved already; see C56.) -/
theorem C104_raises_iff {st : St W} {m : Mat n} {b : Vec n} {args : List Val} {x0 : Option (Vec n)} {tol : ℝ} {k : ℤ} (h : CGArgs Arith.exact st m b args x0 tol k) (hm : Spec.SPD m) (htol : 0 < tol)
    (hk : (n : ℤ) ≤ k) :
    (∃ st', call (mach Arith.exact ext) (fuel + 2) (.glob "conjugate_gradient") args st = .exc "ValueError" st') ↔ b = m *ᵥ x0.getD 0 := by
  have hc := C104_call (ext := ext) (fuel := fuel) h
  rw [Arith.exact_conjugateGradient] at hc
  rw [← C56_raises_iff m b x0 tol k.toNat hm htol (by omega)]
  rcases hr : conjugateGradient m b x0 tol k.toNat with f | x <;> rw [hr] at hc
  · obtain ⟨st', h1, h2⟩ := hc
    rw [conjugateGradient_raises _ _ _ _ _ hr] at h1
    exact ⟨fun _ => ⟨f, rfl⟩, fun _ => ⟨st', h1⟩⟩
  · obtain ⟨st', l, h1, h2, h3, h4⟩ := hc
    rw [h1]
    simp

/-- **C104**, functional specification in exact arithmetic: the text returns the minimiser of the energy on the first Krylov space whose minimiser is accurate enough, and raises if there is none. -/
theorem C104_krylov {st : St W} {m : Mat n} {b x0 : Vec n} {args : List Val} {tol : ℝ} {k : ℤ} (h : CGArgs Arith.exact st m b args (some x0) tol k) (hm : Spec.SPD m) (htol : 0 < tol) (hne : b ≠ m *ᵥ x0) :
    (∃ st' l x, ∃ j : ℕ, call (mach Arith.exact ext) (fuel + 2) (.glob "conjugate_gradient") args st = .ok (.ref l) st' ∧ st'.heap l = some (.vec n x) ∧ 1 ≤ j ∧ (j : ℤ) ≤ k ∧ Spec.IsKrylovMin m b x0 j x ∧
        Spec.residualNorm m b x < tol ∧ ∀ i y, 1 ≤ i → i < j → Spec.IsKrylovMin m b x0 i y → tol ≤ Spec.residualNorm m b y)
    ∨ (∃ st', call (mach Arith.exact ext) (fuel + 2) (.glob "conjugate_gradient") args st = .exc "ValueError" st') ∧
        ∀ (j : ℕ) x, 1 ≤ j → (j : ℤ) ≤ k → Spec.IsKrylovMin m b x0 j x → tol ≤ Spec.residualNorm m b x := by
  have hc := C104_call (ext := ext) (fuel := fuel) h
  rw [Arith.exact_conjugateGradient] at hc
  rcases hr : conjugateGradient m b (some x0) tol k.toNat with f | x <;> rw [hr] at hc
  · obtain ⟨st', h1, h2⟩ := hc
    obtain rfl := conjugateGradient_raises _ _ _ _ _ hr
    refine .inr ⟨⟨st', h1⟩, fun j x h3 h4 => (C67_raises_iff m b x0 tol _ hm htol hne).mp hr j x h3 (by omega)⟩
  · obtain ⟨st', l, h1, h2, h3, h4⟩ := hc
    obtain ⟨j, h5, h6, h7⟩ := (C67_returns_iff m b x0 tol _ hm htol hne x).mp hr
    exact .inl ⟨st', l, x, j, h1, h3, h5, by omega, h7⟩

/-- A caller: a matrix and two vectors. -/
def system (m : Mat n) (b x : Vec n) : St Unit := ⟨fun k => if k = 0 then some (.mat n n (Matrix.of.symm m)) else if k = 1 then some (.vec n b) else if k = 2 then some (.vec n x) else none, 3, ()⟩

theorem system_args (m : Mat n) (b x : Vec n) (tol : ℝ) (k : ℤ) : CGArgs A (system m b x) m b [.ref 0, .ref 1, .ref 2, .num tol, .int k] (some x) tol k :=
  .five rfl (show 0 < 3 by decide) rfl (show 1 < 3 by decide) (show IsStart (system m b x) (some x) (.ref 2) from ⟨2, rfl, rfl⟩) rfl k

theorem literal_exact : 0 < literal Arith.exact 1 5 false := show (0 : ℝ) < if false then ((1 : ℕ) : ℝ) * 10 ^ 5 else ((1 : ℕ) : ℝ) / 10 ^ 5 by norm_num

/-- The system of `tests/test_conjugate_gradient.py:9-16`, with the default arguments: the text returns. -/
theorem C104_sample (ext : ℕ → String → List Val → M Unit Val) : ∃ st' l x,
    call (mach Arith.exact ext) 2 (.glob "conjugate_gradient") [.ref 0, .ref 1] (system sampleSPD ![1, 2] 0) = .ok (.ref l) st' ∧ st'.heap l = some (.vec 2 x) ∧
    Spec.residualNorm sampleSPD ![1, 2] x < literal Arith.exact 1 5 false := by
  have h : CGArgs Arith.exact (system sampleSPD ![1, 2] 0) sampleSPD ![1, 2] [.ref 0, .ref 1] none (literal Arith.exact 1 5 false) 1000 :=
    .two rfl (show 0 < 3 by decide) rfl (show 1 < 3 by decide)
  have h1 := C104_raises_iff (ext := ext) (fuel := 0) h sampleSPD_spd literal_exact (by norm_num)
  obtain ⟨st', -, -, h2 | ⟨l, x, h2, -, h3, h4⟩⟩ := C104_exact (ext := ext) (fuel := 0) h
  · have h3 := h1.mp ⟨st', h2⟩
    simp at h3
  · exact ⟨st', l, x, h2, h3, h4⟩

/-- The same system with right side zero: the text raises, although the default starting point solves the system. -/
theorem C104_solved (ext : ℕ → String → List Val → M Unit Val) : ∃ st',
    call (mach Arith.exact ext) 2 (.glob "conjugate_gradient") [.ref 0, .ref 1] (system sampleSPD 0 0) = .exc "ValueError" st' :=
  (C104_raises_iff (.two rfl (show 0 < 3 by decide) rfl (show 1 < 3 by decide)) sampleSPD_spd literal_exact (by norm_num)).mpr (by simp)

/-- The hypotheses of `C104_krylov`. -/
example : CGArgs Arith.exact (system sampleSPD ![1, 2] ![2, 1]) sampleSPD ![1, 2] [.ref 0, .ref 1, .ref 2, .num (1 / 100), .int 10] (some ![2, 1]) (1 / 100) 10 ∧ Spec.SPD sampleSPD ∧ ![1, 2] ≠ sampleSPD *ᵥ ![2, 1] := by
  refine ⟨system_args _ _ _ _ _, sampleSPD_spd, fun h => ?_⟩
  have := congrFun h 0
  norm_num [sampleSPD, mulVec, dotProduct, Fin.sum_univ_two] at this

end Py

end Ellalgo
