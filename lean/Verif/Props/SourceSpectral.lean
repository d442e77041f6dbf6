import Verif.Py.Refine.Spectral
import Verif.Py.Refine.Skeleton
import Verif.Props.Spectral
import Verif.Props.Skeleton

/-!
# Properties of the text of `spectral_fact.py` and `skeleton.py`
-/

namespace Ellalgo.Py

open Finset

variable {W : Type} {A : Arith} {n : ℕ} {ext : ℕ → String → List Val → M W Val} {fuel : ℕ}

/-- **C108**, in any arithmetic: `fib(n)` returns the `n`-th Fibonacci number for `n ≥ 1` and raises `AssertionError` otherwise; it touches nothing. -/
theorem C108_fib (st : St W) (n : ℤ) :
    (1 ≤ n → call (mach A ext) (fuel + 2) (.glob "fib") [.int n] st = .ok (.int (Nat.fib n.toNat)) st) ∧
    (n ≤ 0 → call (mach A ext) (fuel + 2) (.glob "fib") [.int n] st = .exc "AssertionError" st) := by
  rw [call_fib]
  refine ⟨fun h => ?_, fun h => ?_⟩
  · rw [(C59_fib n).1 (n.toNat - 1) (by omega)]
    have e : n.toNat - 1 + 1 = n.toNat := by omega
    rw [e]
  · rw [(C59_fib n).2 h]
    rfl

/-- `fib(10)` on the empty heap. -/
example (ext : ℕ → String → List Val → M Unit Val) : call (mach A ext) 2 (.glob "fib") [.int 10] ⟨fun _ => none, 0, ()⟩ = .ok (.int 55) ⟨fun _ => none, 0, ()⟩ :=
  (C108_fib _ 10).1 (by norm_num)

/-- **C108**, `inverse_spectral_fact` in exact arithmetic: the autocorrelation of the argument in a new array; for an empty array a `ValueError`. What the caller has does not change. -/
theorem C108_inverse {st : St W} {l : ℕ} {h : Vec n} (hl : st.heap l = some (.vec n h)) (lt : l < st.next) :
    ∃ st', st'.world = st.world ∧ (∀ k < st.next, st'.heap k = st.heap k) ∧
      (n = 0 → call (mach Arith.exact ext) (fuel + 2) (.glob "inverse_spectral_fact") [.ref l] st = .exc "ValueError" st') ∧
      (n ≠ 0 → ∃ k, call (mach Arith.exact ext) (fuel + 2) (.glob "inverse_spectral_fact") [.ref l] st = .ok (.ref k) st' ∧ st.next ≤ k ∧ k < st'.next ∧
        st'.heap k = some (.vec n fun t => Spec.autocorr h t)) := by
  have hc := call_inverse_spectral_fact (ext := ext) (fuel := fuel) hl lt
  by_cases h0 : n = 0
  · rw [(C57_autocorrelation h).1 h0] at hc
    obtain ⟨st', h1, h2⟩ := hc
    exact ⟨st', h2.world, fun k hk => h2.same k hk not_false, fun _ => h1, fun h => absurd h0 h⟩
  · rw [(C57_autocorrelation h).2 h0] at hc
    obtain ⟨st', k, h1, h2, h3, h4, h5⟩ := hc
    exact ⟨st', h5.world, fun k hk => h5.same k hk not_false, fun h => absurd h h0, fun _ => ⟨k, h1, h2, h3, h4⟩⟩

/-- **C108**, what `spectral_fact` does, for every one-dimensional array in exact arithmetic. An empty array is a `ValueError`. A power spectrum that is at most `-1e-4` somewhere on the grid of `100 n`
frequencies is a `RuntimeError`. Otherwise the result is a new array of the same length. What the caller has does not change. -/
theorem C108_outcomes {st : St W} {l : ℕ} {r : Vec n} (hl : st.heap l = some (.vec n r)) (lt : l < st.next) :
    ∃ st', st'.world = st.world ∧ (∀ k < st.next, st'.heap k = st.heap k) ∧
      (n = 0 → call (mach Arith.exact ext) (fuel + 2) (.glob "spectral_fact") [.ref l] st = .exc "ValueError" st') ∧
      (n ≠ 0 → (∃ j < 100 * n, Spec.powerSpectrum r (2 * Real.pi * j / (100 * n)) ≤ -(1 / 10000)) →
        call (mach Arith.exact ext) (fuel + 2) (.glob "spectral_fact") [.ref l] st = .exc "RuntimeError" st') ∧
      (n ≠ 0 → (∀ j < 100 * n, -(1 / 10000) < Spec.powerSpectrum r (2 * Real.pi * j / (100 * n))) →
        ∃ k h, call (mach Arith.exact ext) (fuel + 2) (.glob "spectral_fact") [.ref l] st = .ok (.ref k) st' ∧ st.next ≤ k ∧ k < st'.next ∧ st'.heap k = some (.vec n h)) := by
  have hc := call_spectral_fact (ext := ext) (fuel := fuel) hl lt
  obtain ⟨o1, o2, o3⟩ := C58_outcomes r
  by_cases h0 : n = 0
  · rw [o2.2 h0] at hc
    obtain ⟨st', h1, h2⟩ := hc
    exact ⟨st', h2.world, fun k hk => h2.same k hk not_false, fun _ => h1, fun h => absurd h0 h, fun h => absurd h0 h⟩
  by_cases h1 : ∃ j < 100 * n, Spec.powerSpectrum r (2 * Real.pi * j / (100 * n)) ≤ -(1 / 10000)
  · rw [o3.2 ⟨h0, h1⟩] at hc
    obtain ⟨st', h2, h3⟩ := hc
    refine ⟨st', h3.world, fun k hk => h3.same k hk not_false, fun h => absurd h h0, fun _ _ => h2, fun _ h => ?_⟩
    obtain ⟨j, hj, hle⟩ := h1
    exact absurd (h j hj) (not_lt.2 hle)
  · push Not at h1
    obtain ⟨h, hh⟩ := o1.2 ⟨h0, h1⟩
    rw [hh] at hc
    obtain ⟨st', k, h2, h3, h4, h5, h6⟩ := hc
    refine ⟨st', h6.world, fun k hk => h6.same k hk not_false, fun h => absurd h h0, fun _ h => ?_, fun _ _ => ⟨k, h, h2, h3, h4, h5⟩⟩
    obtain ⟨j, hj, hle⟩ := h
    exact absurd (h1 j hj) (not_lt.2 hle)

/-- The result of a call in the model. -/
theorem spectral_fact_model {st st' : St W} {l k : ℕ} {r h : Vec n} (hl : st.heap l = some (.vec n r)) (lt : l < st.next)
    (hc : call (mach Arith.exact ext) (fuel + 2) (.glob "spectral_fact") [.ref l] st = .ok (.ref k) st') (hk : st'.heap k = some (.vec n h)) :
    spectralFact r = .ok h ∧ k < st'.next := by
  have hn := call_spectral_fact (ext := ext) (fuel := fuel) hl lt
  rw [hc] at hn
  rcases hs : spectralFact r with f | g <;> rw [hs] at hn
  · obtain ⟨_, h1, _⟩ := hn
    simp at h1
  · obtain ⟨s, m, h1, h2, h3, h4, h5⟩ := hn
    simp only [Res.ok.injEq, Val.ref.injEq] at h1
    obtain ⟨rfl, rfl⟩ := h1
    rw [hk] at h4
    simp only [Option.some.injEq, Obj.vec.injEq, heq_eq_eq, true_and] at h4
    exact ⟨congrArg _ h4.symm, h3⟩

/-- **C108**, what `spectral_fact` returns: at the `n` frequencies `2πk/n` the squared magnitude of the frequency response is the desired power spectrum, or, if the spectrum is not positive on the grid,
the spectrum cut off below at `1e-10`. -/
theorem C108_matches {st st' : St W} {l k : ℕ} {r h : Vec n} (hl : st.heap l = some (.vec n r)) (lt : l < st.next)
    (hc : call (mach Arith.exact ext) (fuel + 2) (.glob "spectral_fact") [.ref l] st = .ok (.ref k) st') (hk : st'.heap k = some (.vec n h)) :
    ((∀ j < 100 * n, 0 < Spec.powerSpectrum r (2 * Real.pi * j / (100 * n))) →
      ∀ i < n, ‖Spec.freqResponse h (2 * Real.pi * i / n)‖ ^ 2 = Spec.powerSpectrum r (2 * Real.pi * i / n)) ∧
    ((∃ j < 100 * n, Spec.powerSpectrum r (2 * Real.pi * j / (100 * n)) ≤ 0) →
      ∀ i < n, ‖Spec.freqResponse h (2 * Real.pi * i / n)‖ ^ 2 = max (Spec.powerSpectrum r (2 * Real.pi * i / n)) (1 / 10 ^ 10)) := by
  obtain ⟨hok, -⟩ := spectral_fact_model hl lt hc hk
  exact ⟨fun hp i hi => C58_matches r h hok hp i hi, fun hn i hi => C58_matches_clamped r h hok hn i hi⟩

/-- **C108**, the phase of the result is the minimum phase (see `C70_minimum_phase`). -/
theorem C108_minimum_phase {st st' : St W} {l k : ℕ} {r h : Vec n} (hl : st.heap l = some (.vec n r)) (lt : l < st.next)
    (hc : call (mach Arith.exact ext) (fuel + 2) (.glob "spectral_fact") [.ref l] st = .ok (.ref k) st') (hk : st'.heap k = some (.vec n h))
    (hpos : ∀ j < 100 * n, 0 < Spec.powerSpectrum r (2 * Real.pi * j / (100 * n))) :
    ∃ c : ℕ → ℝ,
      (∀ j < 100 * n, ‖Complex.exp (∑ l ∈ range (50 * n + 1), (c l : ℂ) * Complex.exp (-Complex.I * (2 * Real.pi * j / (100 * n) : ℝ)) ^ l)‖ ^ 2 =
        Spec.powerSpectrum r (2 * Real.pi * j / (100 * n))) ∧
      (∀ k < n, Spec.freqResponse h (2 * Real.pi * k / n) =
        Complex.exp (∑ l ∈ range (50 * n + 1), (c l : ℂ) * Complex.exp (-Complex.I * (2 * Real.pi * k / n : ℝ)) ^ l)) :=
  C70_minimum_phase r h (spectral_fact_model hl lt hc hk).1 hpos

/-- **C108**, there and back: run `spectral_fact` on an array whose power spectrum is positive on the grid, and `inverse_spectral_fact` on the array that it returns. Both calls return, and the second result
has the same `r_0` and the same folded coefficients `r_t + r_{n-t}`. -/
theorem C108_round_trip {st : St W} {l : ℕ} {r : Vec n} (hl : st.heap l = some (.vec n r)) (lt : l < st.next) (hn : n ≠ 0)
    (hpos : ∀ j < 100 * n, 0 < Spec.powerSpectrum r (2 * Real.pi * j / (100 * n))) :
    ∃ st1 st2 k1 k2 r', call (mach Arith.exact ext) (fuel + 2) (.glob "spectral_fact") [.ref l] st = .ok (.ref k1) st1 ∧
      call (mach Arith.exact ext) (fuel + 2) (.glob "inverse_spectral_fact") [.ref k1] st1 = .ok (.ref k2) st2 ∧ st2.heap k2 = some (.vec n r') ∧ st2.heap l = some (.vec n r) ∧
      (∀ h0 : 0 < n, r' ⟨0, h0⟩ = r ⟨0, h0⟩) ∧ ∀ (t : ℕ) (h1 : 0 < t) (h2 : t < n), r' ⟨t, h2⟩ + r' ⟨n - t, by omega⟩ = r ⟨t, h2⟩ + r ⟨n - t, by omega⟩ := by
  obtain ⟨st1, _, s1, -, -, hr⟩ := C108_outcomes (ext := ext) (fuel := fuel) hl lt
  obtain ⟨k1, h, e1, a1, b1, c1⟩ := hr hn fun j hj => lt_trans (by norm_num) (hpos j hj)
  obtain ⟨st2, _, s2, -, hr⟩ := C108_inverse (ext := ext) (fuel := fuel) c1 b1
  obtain ⟨k2, e2, a2, b2, c2⟩ := hr hn
  have lt1 : l < st1.next := by omega
  exact ⟨st1, st2, k1, k2, _, e1, e2, c2, by rw [s2 l lt1, s1 l lt, hl],
    C68_round_trip r h _ (spectral_fact_model hl lt e1 c1).1 ((C57_autocorrelation h).2 hn) hpos⟩

/-- **C108**, the other way: `spectral_fact` returns on whatever `inverse_spectral_fact` returns. -/
theorem C108_accepts {st : St W} {l : ℕ} {g : Vec n} (hl : st.heap l = some (.vec n g)) (lt : l < st.next) (hn : n ≠ 0) :
    ∃ st1 st2 k1 k2 h, call (mach Arith.exact ext) (fuel + 2) (.glob "inverse_spectral_fact") [.ref l] st = .ok (.ref k1) st1 ∧
      call (mach Arith.exact ext) (fuel + 2) (.glob "spectral_fact") [.ref k1] st1 = .ok (.ref k2) st2 ∧ st2.heap k2 = some (.vec n h) ∧
      ((∀ j < 100 * n, Spec.freqResponse g (2 * Real.pi * j / (100 * n)) ≠ 0) →
        ∀ i < n, ‖Spec.freqResponse h (2 * Real.pi * i / n)‖ = ‖Spec.freqResponse g (2 * Real.pi * i / n)‖) := by
  obtain ⟨st1, _, s1, -, hr⟩ := C108_inverse (ext := ext) (fuel := fuel) hl lt
  obtain ⟨k1, e1, a1, b1, c1⟩ := hr hn
  obtain ⟨st2, _, s2, -, -, hr⟩ := C108_outcomes (ext := ext) (fuel := fuel) c1 b1
  have hsp := C57_spectrum g _ ((C57_autocorrelation g).2 hn)
  obtain ⟨k2, h, e2, a2, b2, c2⟩ := hr hn fun j _ => lt_of_lt_of_le (by norm_num) (hsp _).2
  refine ⟨st1, st2, k1, k2, h, e1, e2, c2, fun h0 i hi => ?_⟩
  have hm := (C108_matches c1 b1 e2 c2).1 (fun j hj => by rw [(hsp _).1]; exact pow_pos (norm_pos_iff.2 (h0 j hj)) 2) i hi
  rw [(hsp _).1] at hm
  exact (sq_eq_sq₀ (norm_nonneg _) (norm_nonneg _)).1 hm

/-- A caller with one array. -/
def oneArray (r : Vec n) : St Unit := ⟨fun k => if k = 0 then some (.vec n r) else none, 1, ()⟩

/-- The autocorrelation `[5/4, 1/2]`: the power spectrum `5/4 + cos w` is positive, so both texts return, one after the other. -/
theorem C108_sample (ext : ℕ → String → List Val → M Unit Val) : ∃ st1 st2 k1 k2 r',
    call (mach Arith.exact ext) 2 (.glob "spectral_fact") [.ref 0] (oneArray ![5 / 4, 1 / 2]) = .ok (.ref k1) st1 ∧
    call (mach Arith.exact ext) 2 (.glob "inverse_spectral_fact") [.ref k1] st1 = .ok (.ref k2) st2 ∧ st2.heap k2 = some (.vec 2 r') ∧ r' 0 = 5 / 4 ∧ r' 1 = 1 / 2 := by
  have hpos : ∀ w, 0 < Spec.powerSpectrum (![5 / 4, 1 / 2] : Vec 2) w := fun w => by
    unfold Spec.powerSpectrum
    rw [Fin.sum_univ_two]
    simp
    have := Real.neg_one_le_cos w
    linarith
  obtain ⟨st1, st2, k1, k2, r', h1, h2, h3, -, h4, h5⟩ := C108_round_trip (ext := ext) (fuel := 0) (st := oneArray ![5 / 4, 1 / 2]) (l := 0) (r := ![5 / 4, 1 / 2]) rfl
    (show 0 < 1 by decide) (by norm_num) fun j _ => hpos _
  refine ⟨st1, st2, k1, k2, r', h1, h2, h3, by simpa using h4 (by norm_num), ?_⟩
  have := h5 1 (by norm_num) (by norm_num)
  have e : r' ⟨1, by norm_num⟩ = r' 1 := rfl
  simp only [Nat.add_one_sub_one, e] at this
  simp at this
  linarith

/-- `[0, 1]`: the power spectrum `2 cos w` is `-2` at `π`, and the text raises `RuntimeError`. -/
theorem C108_sample_rejects (ext : ℕ → String → List Val → M Unit Val) : ∃ st',
    call (mach Arith.exact ext) 2 (.glob "spectral_fact") [.ref 0] (oneArray ![0, 1]) = .exc "RuntimeError" st' := by
  obtain ⟨st', _, _, _, h, _⟩ := C108_outcomes (ext := ext) (fuel := 0) (st := oneArray ![0, 1]) (l := 0) (r := ![0, 1]) rfl (show 0 < 1 by decide)
  refine ⟨st', h (by norm_num) ⟨100, by norm_num, ?_⟩⟩
  unfold Spec.powerSpectrum
  rw [Fin.sum_univ_two]
  have e : 2 * Real.pi * ((100 : ℕ) : ℝ) / (100 * ((2 : ℕ) : ℝ)) = Real.pi := by push_cast; ring
  rw [e]
  simp
  norm_num

end Ellalgo.Py
