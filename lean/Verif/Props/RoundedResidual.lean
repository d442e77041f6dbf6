import Verif.Spec.RoundedResidual
import Verif.Model.RoundedCGTrace
import Verif.Props.SourceConjGrad
import Verif.Props.RoundedContainment
import Verif.Props.RoundedStable
import Verif.Props.SourceConverge
import Verif.Lemmas.RoundMono

/-!
# C125: the residual of what `conjugate_gradient` returns in floating point

The function stops on a residual that it updates, and that it never recomputes. In exact arithmetic that is the true residual (C54). In floating point the two drift apart; here is how far they can, for every matrix.
-/

namespace Ellalgo

open Finset Matrix Spec

variable {n : ℕ}

/-- One entry of line 79. -/
theorem solution_entry {u x x' w q X : ℝ} (hu : 0 ≤ u) (hu1 : u ≤ 1 / 10) (h1 : |w - q| ≤ u * |q|) (h2 : |x' - (x + w)| ≤ u * |x + w|) (hx : |x| ≤ X) (hx' : |x'| ≤ X) :
    |q| ≤ 12 / 5 * X ∧ |x' - x - q| ≤ 7 / 2 * u * X := by
  have hX : 0 ≤ X := (abs_nonneg _).trans hx
  have a1 : |x + w| ≤ 10 / 9 * X := by
    have := abs_sub_abs_le_abs_sub (x + w) x'
    rw [abs_sub_comm] at this
    have h3 : u * |x + w| ≤ 1 / 10 * |x + w| := mul_le_mul_of_nonneg_right hu1 (abs_nonneg _)
    linarith
  have a2 : |w| ≤ 19 / 9 * X := by
    have := abs_sub (x + w) x
    rw [add_sub_cancel_left] at this
    linarith
  have a3 : |q| ≤ 190 / 81 * X := by
    have := abs_sub_abs_le_abs_sub q w
    rw [abs_sub_comm] at this
    have h3 : u * |q| ≤ 1 / 10 * |q| := mul_le_mul_of_nonneg_right hu1 (abs_nonneg _)
    linarith
  refine ⟨by linarith, ?_⟩
  have e : x' - x - q = (x' - (x + w)) + (w - q) := by ring
  rw [e]
  have h3 := abs_add_le (x' - (x + w)) (w - q)
  have h4 := mul_le_mul_of_nonneg_left a1 hu
  have h5 := mul_le_mul_of_nonneg_left a3 hu
  have h6 : 0 ≤ u * X := by positivity
  linarith

/-- One entry of line 80: `t` is the product of the step with the computed entry of `A_direction`, `z` that with the true one. -/
theorem residual_entry {u γ r r' v t z a : ℝ} (hu : 0 ≤ u) (huγ : u ≤ γ) (hγ : γ ≤ 1 / 10) (ha : 0 ≤ a) (hz : |z| ≤ 12 / 5 * a) (ht : |t - z| ≤ 12 / 5 * γ * a) (hv : |v - t| ≤ u * |t|)
    (hr : |r' - (r - v)| ≤ u * |r - v|) : |r' - r + z| ≤ γ * |r| + 8 * γ * a := by
  have hγ0 := hu.trans huγ
  have hγa : γ * a ≤ 1 / 10 * a := mul_le_mul_of_nonneg_right hγ ha
  have b1 : |t| ≤ 66 / 25 * a := by
    have := abs_add_le (t - z) z
    rw [sub_add_cancel] at this
    linarith
  have b2 : |v| ≤ 363 / 125 * a := by
    have := abs_add_le (v - t) t
    rw [sub_add_cancel] at this
    have h3 : u * |t| ≤ 1 / 10 * |t| := mul_le_mul_of_nonneg_right (huγ.trans hγ) (abs_nonneg _)
    linarith
  have b3 := abs_sub r v
  have e : r' - r + z = (r' - (r - v)) - (v - t) - (t - z) := by ring
  rw [e]
  have h1 := abs_sub ((r' - (r - v)) - (v - t)) (t - z)
  have h2 := abs_sub (r' - (r - v)) (v - t)
  have h3 : u * |r - v| ≤ γ * (|r| + 363 / 125 * a) := mul_le_mul huγ (by linarith) (abs_nonneg _) hγ0
  have h4 : u * |t| ≤ γ * (66 / 25 * a) := mul_le_mul huγ b1 (abs_nonneg _) hγ0
  have h5 : 0 ≤ γ * a := by positivity
  linarith

theorem abs_row_le (m : Mat n) (i : Fin n) {q Y : Vec n} (h : ∀ j, |q j| ≤ Y j) : |(m *ᵥ q) i| ≤ ∑ j, |m i j| * Y j := by
  simp only [mulVec, dotProduct]
  refine (abs_sum_le_sum_abs _ _).trans (sum_le_sum fun j _ => ?_)
  rw [abs_mul]
  exact mul_le_mul_of_nonneg_left (h j) (abs_nonneg _)

/-- The distance of the updated residual from the true one grows by at most `γ` of itself and `13 γ (|b| + |A| X)`. -/
theorem gap_step {A : Arith} {u γ : ℝ} (hA : A.Accurate u γ n) (hu : 0 ≤ u) (huγ : u ≤ γ) (hγ : γ ≤ 1 / 10) (m : Mat n) (b X x x' r r' d : Vec n) (step G : ℝ)
    (hx' : ∀ i, x' i = A.add (x i) (A.mul step (d i))) (hr' : ∀ i, r' i = A.sub (r i) (A.mul step (A.mv m d i))) (hX : ∀ i, |x i| ≤ X i) (hX' : ∀ i, |x' i| ≤ X i)
    (hG : ∀ i, |b i - (m *ᵥ x) i - r i| ≤ G * reach m b X i) (i : Fin n) : |b i - (m *ᵥ x') i - r' i| ≤ ((1 + γ) * G + 13 * γ) * reach m b X i := by
  have hγ0 := hu.trans huγ
  have hX0 : ∀ j, 0 ≤ X j := fun j => (abs_nonneg _).trans (hX j)
  have hent : ∀ j, |step * d j| ≤ 12 / 5 * X j ∧ |x' j - x j - step * d j| ≤ 7 / 2 * u * X j := fun j =>
    solution_entry hu (huγ.trans hγ) (hA.rnd (step * d j)) (by rw [hx' j]; exact hA.rnd _) (hX j) (hX' j)
  obtain ⟨a, ha⟩ : ∃ a, a = ∑ j, |m i j| * X j := ⟨_, rfl⟩
  have ha0 : 0 ≤ a := by rw [ha]; exact sum_nonneg fun j _ => mul_nonneg (abs_nonneg _) (hX0 j)
  have hz : |step * (m *ᵥ d) i| ≤ 12 / 5 * a := by
    have e : step * (m *ᵥ d) i = (m *ᵥ fun j => step * d j) i := by
      simp only [mulVec, dotProduct, mul_sum]
      exact sum_congr rfl fun j _ => by ring
    rw [e]
    refine (abs_row_le m i fun j => (hent j).1).trans (le_of_eq ?_)
    rw [ha, mul_sum]
    exact sum_congr rfl fun j _ => by ring
  have ht : |step * A.mv m d i - step * (m *ᵥ d) i| ≤ 12 / 5 * γ * a := by
    rw [← mul_sub, abs_mul]
    have h1 := mul_le_mul_of_nonneg_left (hA.mv m d le_rfl i) (abs_nonneg step)
    have h2 : |step| * (γ * ∑ j, |m i j| * |d j|) = γ * ∑ j, |m i j| * |step * d j| := by
      simp only [mul_sum]
      exact sum_congr rfl fun j _ => by rw [abs_mul]; ring
    have h3 : ∑ j, |m i j| * |step * d j| ≤ 12 / 5 * a := by
      rw [ha, mul_sum]
      refine sum_le_sum fun j _ => ?_
      have := mul_le_mul_of_nonneg_left (hent j).1 (abs_nonneg (m i j))
      linarith
    have h4 := mul_le_mul_of_nonneg_left h3 hγ0
    linarith
  have her := residual_entry hu huγ hγ ha0 hz ht (hA.rnd (step * A.mv m d i)) (r := r i) (r' := r' i) (by rw [hr' i]; exact hA.rnd _)
  have hex : |(m *ᵥ fun j => x' j - x j - step * d j) i| ≤ 7 / 2 * u * a := by
    refine (abs_row_le m i fun j => (hent j).2).trans (le_of_eq ?_)
    rw [ha, mul_sum]
    exact sum_congr rfl fun j _ => by ring
  have hmx := abs_row_le m i hX
  rw [← ha] at hmx
  have hR : reach m b X i = |b i| + a := by rw [ha]; rfl
  have hgi := hG i
  rw [hR] at hgi ⊢
  have e : b i - (m *ᵥ x') i - r' i = (b i - (m *ᵥ x) i - r i) - (m *ᵥ fun j => x' j - x j - step * d j) i - (r' i - r i + step * (m *ᵥ d) i) := by
    have : (m *ᵥ fun j => x' j - x j - step * d j) i = (m *ᵥ x') i - (m *ᵥ x) i - step * (m *ᵥ d) i := by
      simp only [mulVec, dotProduct, mul_sum]
      rw [← sum_sub_distrib, ← sum_sub_distrib]
      exact sum_congr rfl fun j _ => by ring
    rw [this]; ring
  have hri : |r i| ≤ |b i| + a + G * (|b i| + a) := by
    have e : r i = b i - (m *ᵥ x) i - (b i - (m *ᵥ x) i - r i) := by ring
    have h1 := abs_sub (b i - (m *ᵥ x) i) (b i - (m *ᵥ x) i - r i)
    have h2 := abs_sub (b i) ((m *ᵥ x) i)
    rw [← e] at h1
    linarith
  rw [e]
  have h1 := abs_sub ((b i - (m *ᵥ x) i - r i) - (m *ᵥ fun j => x' j - x j - step * d j) i) (r' i - r i + step * (m *ᵥ d) i)
  have h2 := abs_sub (b i - (m *ᵥ x) i - r i) ((m *ᵥ fun j => x' j - x j - step * d j) i)
  have h3 := mul_le_mul_of_nonneg_left hri hγ0
  have h4 := mul_le_mul_of_nonneg_right huγ ha0
  have h5 : 0 ≤ γ * |b i| := by positivity
  have h6 : 0 ≤ γ * a := by positivity
  linarith

/-- The residual computed before the loop. -/
theorem gap_init {A : Arith} {u γ : ℝ} (hA : A.Accurate u γ n) (hu : 0 ≤ u) (huγ : u ≤ γ) (hγ : γ ≤ 1 / 10) (m : Mat n) (b X x : Vec n) (hX : ∀ i, |x i| ≤ X i) (i : Fin n) :
    |b i - (m *ᵥ x) i - A.sub (b i) (A.mv m x i)| ≤ 13 * γ * reach m b X i := by
  have hγ0 := hu.trans huγ
  obtain ⟨a, ha⟩ : ∃ a, a = ∑ j, |m i j| * X j := ⟨_, rfl⟩
  have ha0 : 0 ≤ a := by rw [ha]; exact sum_nonneg fun j _ => mul_nonneg (abs_nonneg _) ((abs_nonneg _).trans (hX j))
  have hR : reach m b X i = |b i| + a := by rw [ha]; rfl
  have hmx := abs_row_le m i hX
  have h1 : |A.mv m x i - (m *ᵥ x) i| ≤ γ * a := by
    refine (hA.mv m x le_rfl i).trans (mul_le_mul_of_nonneg_left ?_ hγ0)
    rw [ha]
    exact sum_le_sum fun j _ => mul_le_mul_of_nonneg_left (hX j) (abs_nonneg _)
  rw [← ha] at hmx
  have h2 := hA.rnd (b i - A.mv m x i)
  have h3 : |A.mv m x i| ≤ 11 / 10 * a := by
    have := abs_add_le (A.mv m x i - (m *ᵥ x) i) ((m *ᵥ x) i)
    rw [sub_add_cancel] at this
    have := mul_le_mul_of_nonneg_right hγ ha0
    linarith
  have h4 := abs_sub (b i) (A.mv m x i)
  have h5 : u * |b i - A.mv m x i| ≤ γ * (|b i| + 11 / 10 * a) := mul_le_mul huγ (by linarith) (abs_nonneg _) hγ0
  have e : b i - (m *ᵥ x) i - A.sub (b i) (A.mv m x i) = (A.mv m x i - (m *ᵥ x) i) - (A.rnd (b i - A.mv m x i) - (b i - A.mv m x i)) := by
    show b i - (m *ᵥ x) i - A.rnd (b i - A.mv m x i) = _
    ring
  rw [hR, e]
  have h6 := abs_sub (A.mv m x i - (m *ᵥ x) i) (A.rnd (b i - A.mv m x i) - (b i - A.mv m x i))
  have h7 : 0 ≤ γ * |b i| := by positivity
  have h8 : 0 ≤ γ * a := by positivity
  linarith

/-- One pass through the loop. -/
theorem cgStep_cases (A : Arith) (m : Mat n) (tol : ℝ) (s : CGState n) {o : Vec n ⊕ CGState n} (h : A.cgStep m tol s = .ok o) :
    ∃ step, ∃ x' r' : Vec n, (∀ i, x' i = A.add (s.sol i) (A.mul step (s.dir i))) ∧ (∀ i, r' i = A.sub (s.res i) (A.mul step (A.mv m s.dir i))) ∧
      (∀ y, o = .inl y → y = x' ∧ 0 ≤ A.dot r' r' ∧ A.rnd (Real.sqrt (A.dot r' r')) < tol) ∧ ∀ s', o = .inr s' → s'.sol = x' ∧ s'.res = r' := by
  unfold Arith.cgStep at h
  simp only at h
  split_ifs at h with h1
  refine ⟨A.div s.rr (A.dot s.dir (A.mv m s.dir)), _, _, fun i => rfl, fun i => rfl, ?_⟩
  generalize (fun i => A.sub (s.res i) (A.mul (A.div s.rr (A.dot s.dir (A.mv m s.dir))) (A.mv m s.dir i))) = r' at h ⊢
  generalize (fun i => A.add (s.sol i) (A.mul (A.div s.rr (A.dot s.dir (A.mv m s.dir))) (s.dir i))) = x' at h ⊢
  unfold Arith.psqrt at h
  by_cases h2 : A.dot r' r' < 0
  · simp [h2] at h
  · simp only [h2, if_false] at h
    split_ifs at h with h3
    · cases h
      exact ⟨fun y hy => by cases hy; exact ⟨rfl, not_lt.mp h2, h3⟩, fun _ hs => by cases hs⟩
    · rcases hd : A.pdiv (A.dot r' r') s.rr with f | ratio <;> simp only [hd] at h
      · cases h
      · cases h
        exact ⟨fun _ hy => (by cases hy), fun s' hs => by cases hs; exact ⟨rfl, rfl⟩⟩

/-- The loop. -/
theorem gap_loop {A : Arith} {u γ : ℝ} (hA : A.Accurate u γ n) (hu : 0 ≤ u) (huγ : u ≤ γ) (hγ : γ ≤ 1 / 10) {m : Mat n} {b X : Vec n} {tol : ℝ} {y : Vec n} :
    ∀ (fuel : ℕ) (s : CGState n) (G : ℝ), (∀ i, |b i - (m *ᵥ s.sol) i - s.res i| ≤ G * reach m b X i) → A.cgLoop m tol fuel s = .ok y → (∀ z ∈ A.cgTrace m tol fuel s, ∀ i, |z i| ≤ X i) →
      ∃ r : Vec n, (∀ i, |b i - (m *ᵥ y) i - r i| ≤ ((1 + γ) ^ ((A.cgTrace m tol fuel s).length - 1) * (G + 13) - 13) * reach m b X i) ∧ 0 ≤ A.dot r r ∧ A.rnd (Real.sqrt (A.dot r r)) < tol
  | 0, s, G, _, hl, _ => by simp [Arith.cgLoop] at hl
  | fuel + 1, s, G, hG, hl, hX => by
    rw [Arith.cgLoop] at hl
    rw [Arith.cgTrace] at hX ⊢
    rcases hs : A.cgStep m tol s with f | o
    · rw [hs] at hl; cases hl
    obtain ⟨step, x', r', h1, h2, h3, h3'⟩ := cgStep_cases A m tol s hs
    have hX0 : ∀ i, |s.sol i| ≤ X i := hX _ (List.mem_cons_self ..)
    rcases o with z | s'
    · rw [hs] at hl
      simp only [hs] at hX ⊢
      cases hl
      obtain ⟨rfl, h4, h5⟩ := h3 _ rfl
      refine ⟨r', fun i => (gap_step hA hu huγ hγ m b X s.sol y s.res r' s.dir step G h1 h2 hX0 (hX y (by simp)) hG i).trans (le_of_eq ?_), h4, h5⟩
      simp only [List.length_cons, List.length_nil]
      ring
    · rw [hs] at hl
      simp only [hs] at hX ⊢
      obtain ⟨h4, h5⟩ := h3' _ rfl
      have hne : ∀ (f : ℕ) (t : CGState n), ∃ l, A.cgTrace m tol f t = t.sol :: l := fun f t => by cases f <;> exact ⟨_, rfl⟩
      obtain ⟨l, hl'⟩ := hne fuel s'
      have hX1 : ∀ i, |s'.sol i| ≤ X i := hX _ (List.mem_cons_of_mem _ (by rw [hl']; exact List.mem_cons_self ..))
      obtain ⟨r, h6, h7⟩ := gap_loop hA hu huγ hγ fuel s' ((1 + γ) * G + 13 * γ)
        (gap_step hA hu huγ hγ m b X s.sol s'.sol s.res s'.res s.dir step G (by rw [h4]; exact h1) (by rw [h5]; exact h2) hX0 hX1 hG) hl fun z hz => hX z (List.mem_cons_of_mem _ hz)
      refine ⟨r, fun i => (h6 i).trans (le_of_eq ?_), h7⟩
      rw [hl']
      simp only [List.length_cons, Nat.add_sub_cancel]
      rw [pow_succ]
      ring

/-- A vector whose computed length is below the tolerance. -/
theorem length_of_computed {A : Arith} {u γ tol : ℝ} (hA : A.Accurate u γ n) (hu : 0 ≤ u) (huγ : u ≤ γ) (hγ : γ ≤ 1 / 10) {r : Vec n} (h : A.rnd (Real.sqrt (A.dot r r)) < tol) :
    nrm r ≤ (1 + 3 * γ) * tol := by
  have hγ0 := hu.trans huγ
  have h1 := (abs_le.mp (hA.dot r r le_rfl)).1
  have e : ∑ i, |r i| * |r i| = nrm r ^ 2 := by
    rw [nrm_sq, dot_self_eq]
    exact sum_congr rfl fun i _ => by rw [abs_mul_abs_self, sq]
  rw [e, ← nrm_sq] at h1
  have h2 : (1 - γ) * nrm r ≤ Real.sqrt (A.dot r r) := by
    refine Real.le_sqrt_of_sq_le ?_
    have : (1 - γ) ^ 2 ≤ 1 - γ := by nlinarith
    have := mul_le_mul_of_nonneg_right this (sq_nonneg (nrm r))
    nlinarith
  have h3 := hA.rnd (Real.sqrt (A.dot r r))
  have h0 := Real.sqrt_nonneg (A.dot r r)
  rw [abs_of_nonneg h0] at h3
  have h4 := (abs_le.mp h3).1
  have h5 := nrm_nonneg r
  have h6 : (1 - γ) * ((1 - γ) * nrm r) ≤ tol := by
    have a1 := mul_le_mul_of_nonneg_left h2 (show (0 : ℝ) ≤ 1 - γ by linarith)
    have a2 := mul_le_mul_of_nonneg_right huγ h0
    linarith
  have h7 : 1 ≤ (1 + 3 * γ) * ((1 - γ) * (1 - γ)) := by nlinarith [mul_nonneg hγ0 hγ0, mul_nonneg hγ0 (mul_nonneg hγ0 hγ0)]
  have h8 := mul_le_mul_of_nonneg_right h7 h5
  have h9 := mul_le_mul_of_nonneg_left h6 (show (0 : ℝ) ≤ 1 + 3 * γ by linarith)
  linarith

theorem nrm_mono {x y : Vec n} (h : ∀ i, |x i| ≤ y i) : nrm x ≤ nrm y := by
  unfold nrm
  refine Real.sqrt_le_sqrt ?_
  rw [dot_self_eq, dot_self_eq]
  exact sum_le_sum fun i _ => by rw [← sq_abs]; exact pow_le_pow_left₀ (abs_nonneg _) (h i) 2

theorem length2_eq (v : Vec n) : length2 v = nrm v := by rw [nrm, dot_self_eq]; rfl

/-- **C125.** A vector that `conjugate_gradient` returns in floating point, for any matrix: its true residual is below `(1 + 3 γ) tol + 13 ((1 + γ)^(k + 1) - 1) | |b| + |A| X |`, with the number `k` of passes made and any vector `X` that bounds
the entries of `solution` during the run. -/
theorem C125_residual {A : Arith} {u γ : ℝ} (hA : A.Accurate u γ n) (hu : 0 ≤ u) (huγ : u ≤ γ) (hγ : γ ≤ 1 / 10) {m : Mat n} {b X : Vec n} {x0 : Option (Vec n)} {tol : ℝ} {maxIter : ℕ} {y : Vec n}
    (h : A.conjugateGradient m b x0 tol maxIter = .ok y) (hX : ∀ z ∈ A.cgIterates m b x0 tol maxIter, ∀ i, |z i| ≤ X i) :
    residualNorm m b y ≤ (1 + 3 * γ) * tol + 13 * ((1 + γ) ^ (A.cgIterates m b x0 tol maxIter).length - 1) * length2 (reach m b X) := by
  have hne : ∃ l, A.cgIterates m b x0 tol maxIter = (A.cgInit m b x0).sol :: l := by unfold Arith.cgIterates; cases maxIter <;> exact ⟨_, rfl⟩
  obtain ⟨l, hl⟩ := hne
  obtain ⟨r, h1, h2, h3⟩ := gap_loop hA hu huγ hγ (X := X) maxIter (A.cgInit m b x0) (13 * γ)
    (gap_init hA hu huγ hγ m b X _ (hX _ (by rw [hl]; exact List.mem_cons_self ..))) h hX
  have h4 := length_of_computed hA hu huγ hγ h3
  have hγ0 := hu.trans huγ
  have hp : 0 ≤ (1 + γ) ^ (A.cgIterates m b x0 tol maxIter).length - 1 := sub_nonneg.mpr (one_le_pow₀ (by linarith))
  have e : (1 + γ) ^ ((A.cgTrace m tol maxIter (A.cgInit m b x0)).length - 1) * (13 * γ + 13) - 13 = 13 * ((1 + γ) ^ (A.cgIterates m b x0 tol maxIter).length - 1) := by
    have : A.cgTrace m tol maxIter (A.cgInit m b x0) = A.cgIterates m b x0 tol maxIter := rfl
    rw [this, hl]
    simp only [List.length_cons, Nat.add_sub_cancel, pow_succ]
    ring
  rw [e] at h1
  rw [residualNorm_eq, length2_eq]
  change nrm (b - m *ᵥ y) ≤ _
  have e2 : b - m *ᵥ y = r + (b - m *ᵥ y - r) := by abel
  rw [e2]
  refine (nrm_add_le _ _).trans (add_le_add h4 ?_)
  have h5 := nrm_mono (x := b - m *ᵥ y - r) (y := (13 * ((1 + γ) ^ (A.cgIterates m b x0 tol maxIter).length - 1)) • reach m b X) h1
  refine h5.trans (le_of_eq ?_)
  unfold nrm
  rw [smul_dotProduct, dotProduct_smul, smul_eq_mul, smul_eq_mul, ← mul_assoc, Real.sqrt_mul (by positivity), Real.sqrt_mul_self (by positivity)]

/-- The number of values is at most the number of passes allowed, and one. -/
theorem cgIterates_length (A : Arith) (m : Mat n) (b : Vec n) (x0 : Option (Vec n)) (tol : ℝ) (maxIter : ℕ) : (A.cgIterates m b x0 tol maxIter).length ≤ maxIter + 1 := by
  unfold Arith.cgIterates
  generalize A.cgInit m b x0 = s
  induction maxIter generalizing s with
  | zero => simp [Arith.cgTrace]
  | succ k ih =>
    rw [Arith.cgTrace, List.length_cons]
    rcases A.cgStep m tol s with f | z | s' <;> simp only [List.length_nil, List.length_cons]
    · omega
    · omega
    · have := ih s'; omega

/-- The closest `p`-bit number to a third, three times, is rounded to one. -/
theorem third_back {p : ℕ} (hp : 2 ≤ p) : ∃ c : ℝ, roundBits p (1 / 3) = c ∧ roundBits p c = c ∧ roundBits p (c * 3) = 1 ∧ 3 * c ≠ 1 := by
  have h2 : (2 : ℝ) ≠ 0 := two_ne_zero
  have hpow : (4 : ℝ) ≤ 2 ^ p := by
    calc (4 : ℝ) = 2 ^ 2 := by norm_num
      _ ≤ 2 ^ p := pow_le_pow_right₀ (by norm_num) hp
  have e1 : binExp (1 / 3) = -2 := binExp_eq (by norm_num) (by norm_num)
  have a1 : (1 / 3 : ℝ) * 2 ^ ((p : ℤ) - 1 - -2) = 2 * 2 ^ p / 3 := by
    rw [show (p : ℤ) - 1 - -2 = p + 1 by ring, zpow_add₀ h2, zpow_natCast, zpow_one]; ring
  have hr := abs_le.mp (abs_roundHalfEven_sub_le (2 * 2 ^ p / 3))
  have ec : roundBits p (1 / 3) = (roundHalfEven (2 * 2 ^ p / 3) : ℝ) * 2 ^ (-1 - (p : ℤ)) := by
    unfold roundBits
    rw [if_neg (by norm_num), e1, a1]
    congr 2
  have w : (2 : ℝ) ^ (-1 - (p : ℤ)) * 2 ^ p = 1 / 2 := by
    rw [← zpow_natCast, ← zpow_add₀ h2]; norm_num
  have wpos : (0 : ℝ) < 2 ^ (-1 - (p : ℤ)) := zpow_pos two_pos _
  refine ⟨_, ec, ?_, ?_⟩
  · rw [← ec]; exact roundBits_idem (by omega) _
  generalize roundHalfEven (2 * 2 ^ p / 3) = k at *
  have hk : 3 * k - 2 * 2 ^ p = 1 ∨ 3 * k - 2 * 2 ^ p = -1 := by
    have b1 : ((3 * k - 2 * 2 ^ p : ℤ) : ℝ) < 2 := by push_cast; linarith
    have b2 : (-2 : ℝ) < ((3 * k - 2 * 2 ^ p : ℤ) : ℝ) := by push_cast; linarith
    have b3 : 3 * k - 2 * 2 ^ p < 2 := by exact_mod_cast b1
    have b4 : -2 < 3 * k - 2 * 2 ^ p := by exact_mod_cast b2
    have b5 : 3 * k - 2 * 2 ^ p ≠ 0 := fun h => by
      have : (3 : ℤ) ∣ 2 ^ (p + 1) := ⟨k, by rw [pow_succ]; linarith⟩
      have h3 : (3 : ℕ) ∣ 2 ^ (p + 1) := by exact_mod_cast this
      have := Nat.prime_three.dvd_of_dvd_pow h3
      norm_num at this
    omega
  have s0 : (2 : ℝ) ^ ((p : ℤ) - 1 - 0) * 2 ^ (-1 - (p : ℤ)) = 1 / 4 := by rw [← zpow_add₀ h2]; ring_nf; norm_num
  have s1 : (2 : ℝ) ^ ((p : ℤ) - 1 - -1) * 2 ^ (-1 - (p : ℤ)) = 1 / 2 := by rw [← zpow_add₀ h2]; ring_nf; norm_num
  generalize hW : (2 : ℝ) ^ (-1 - (p : ℤ)) = W at *
  have hWs : W ≤ 1 / 8 := by nlinarith
  rcases hk with hk | hk
  · have hk' : (k : ℝ) * 3 = 2 * 2 ^ p + 1 := by
      have : ((3 * k - 2 * 2 ^ p : ℤ) : ℝ) = 1 := by exact_mod_cast hk
      push_cast at this; linarith
    have ex : (k : ℝ) * W * 3 = 1 + W := by linear_combination W * hk' + 2 * w
    refine ⟨?_, fun h => by linarith⟩
    rw [ex]
    have hint : ((2 ^ (p - 1) : ℤ) : ℝ) * 2 = 2 ^ p := by push_cast; rw [← pow_succ]; congr 1; omega
    have hz : (2 : ℝ) ^ ((p : ℤ) - 1 - 0) * 2 = 2 ^ p := by rw [← zpow_natCast, ← zpow_add_one₀ h2]; congr 1; ring
    have := roundBits_eq (p := p) (x := 1 + W) (e := 0) (k := 2 ^ (p - 1)) (by norm_num; linarith) (by norm_num; linarith) (by
      have : (1 + W) * 2 ^ ((p : ℤ) - 1 - 0) - ((2 ^ (p - 1) : ℤ) : ℝ) = 1 / 4 := by linear_combination s0 + hz / 2 - hint / 2
      rw [this]; norm_num)
    rw [this]
    have hz2 : (2 : ℝ) ^ (0 + 1 - (p : ℤ)) * 2 ^ p = 2 := by rw [← zpow_natCast, ← zpow_add₀ h2]; norm_num
    linear_combination (2 : ℝ) ^ (0 + 1 - (p : ℤ)) / 2 * hint + hz2 / 2
  · have hk' : (k : ℝ) * 3 = 2 * 2 ^ p - 1 := by
      have : ((3 * k - 2 * 2 ^ p : ℤ) : ℝ) = -1 := by exact_mod_cast hk
      push_cast at this; linarith
    have ex : (k : ℝ) * W * 3 = 1 - W := by linear_combination W * hk' + 2 * w
    refine ⟨?_, fun h => by linarith⟩
    rw [ex]
    have hz : (2 : ℝ) ^ ((p : ℤ) - 1 - -1) = 2 ^ p := by rw [← zpow_natCast]; congr 1; ring
    have := roundBits_tie_up (p := p) (x := 1 - W) (e := -1) (k := 2 ^ p - 1) (by norm_num; linarith) (by norm_num; linarith) (by
      have : Even ((2 : ℤ) ^ p) := (even_two).pow_of_ne_zero (by omega)
      rw [Int.not_even_iff_odd]
      exact this.sub_odd odd_one) (by push_cast; linear_combination hz - s1)
    rw [this]
    have hz2 : (2 : ℝ) ^ (-1 + 1 - (p : ℤ)) * 2 ^ p = 1 := by rw [← zpow_natCast, ← zpow_add₀ h2]; norm_num
    rw [show (((2 ^ p - 1 : ℤ) : ℝ) + 1) = 2 ^ p by push_cast; ring, mul_comm]
    exact hz2

/-- **C125.** The error beside the tolerance is needed: for the system `[3] x = [1]` the call returns in its first pass whatever the positive tolerance, in every precision, and the residual of what it returns is not zero. -/
theorem C125_needed {p : ℕ} (hp : 2 ≤ p) : ∃ y : Vec 1, 0 < residualNorm !![(3 : ℝ)] ![1] y ∧ ∀ (tol : ℝ) (maxIter : ℕ), 0 < tol → (Arith.ieee p).conjugateGradient !![3] ![1] none tol (maxIter + 1) = .ok y := by
  obtain ⟨c, h1, h2, h3, h4⟩ := third_back hp
  obtain ⟨-, -, -, -, -, -, -, -, -, -, -, r1, r3, -⟩ := third_facts hp
  refine ⟨fun _ => c, ?_, fun tol maxIter htol => ?_⟩
  · unfold residualNorm
    refine Real.sqrt_pos.mpr ?_
    simp only [Fin.sum_univ_one, mulVec, dotProduct]
    have : (1 : ℝ) - 3 * c ≠ 0 := sub_ne_zero.mpr (Ne.symm h4)
    have := sq_pos_iff.mpr this
    simpa using this
  · have hd : ∀ x y : Vec 1, (Arith.ieee p).dot x y = roundBits p (0 + roundBits p (x 0 * y 0)) := fun x y => by simp [Arith.ieee, seqDot, Fin.foldl_succ, Fin.foldl_zero]
    have hm : ∀ (M : Mat 1) (x : Vec 1) (i : Fin 1), (Arith.ieee p).mv M x i = roundBits p (0 + roundBits p (M i 0 * x 0)) := fun M x i => by simp [Arith.ieee, seqDot, Fin.foldl_succ, Fin.foldl_zero]
    have hr : ∀ x, (Arith.ieee p).rnd x = roundBits p x := fun _ => rfl
    have hi : (Arith.ieee p).cgInit !![3] ![1] none = ⟨fun _ => 0, fun _ => 1, fun _ => 1, 1⟩ := by
      unfold Arith.cgInit
      have e : (fun i : Fin 1 => (Arith.ieee p).sub (![(1 : ℝ)] i) ((Arith.ieee p).mv !![3] ((none : Option (Vec 1)).getD 0) i)) = fun _ => 1 := by
        funext i
        fin_cases i
        simp [Arith.sub, hm, hr, r1]
      simp only [e, hd]
      simp [r1]
      rfl
    rw [Arith.conjugateGradient, hi, Arith.cgLoop]
    have hs : (Arith.ieee p).cgStep !![3] tol ⟨fun _ => 0, fun _ => 1, fun _ => 1, 1⟩ = .ok (.inl fun _ => c) := by
      unfold Arith.cgStep
      have em : ((Arith.ieee p).mv !![3] fun _ : Fin 1 => 1) = fun _ => (3 : ℝ) := by funext i; fin_cases i; simp [hm, r3]
      simp only [em, hd, Arith.div, Arith.mul, Arith.add, Arith.sub, hr, Arith.psqrt]
      simp only [mul_one, one_mul, r3, zero_add]
      rw [if_neg (by norm_num), h1, h2, h3]
      simp [htol, h2]
    rw [hs]

namespace Py

variable {W : Type} {p : ℕ} {ext : ℕ → String → List Val → M W Val} {fuel : ℕ}

/-- **C125.** A call from the text on machine numbers, for any matrix: it raises, or returns a new array with a true residual of at most `(1 + 6 (n+1) 2^-p) tol + 52 (max_iter + 1) (n+1) 2^-p | |b| + |A| X |`, where `X` bounds the entries of `solution`
during the run; and what the caller has does not change. -/
theorem C125_text (hp : 20 * ((n : ℝ) + 1) ≤ 2 ^ p) {st : St W} {m : Mat n} {b : Vec n} {args : List Val} {x0 : Option (Vec n)} {tol : ℝ} {k : ℤ} (h : CGArgs (Arith.ieee p) st m b args x0 tol k)
    (hk : 2 * ((k.toNat : ℝ) + 1) * (n + 1) ≤ 2 ^ p) {X : Vec n} (hX : ∀ z ∈ (Arith.ieee p).cgIterates m b x0 tol k.toNat, ∀ i, |z i| ≤ X i) :
    ∃ st', st'.world = st.world ∧ (∀ l < st.next, st'.heap l = st.heap l) ∧
      ((∃ e, call (mach (Arith.ieee p) ext) (fuel + 2) (.glob "conjugate_gradient") args st = .exc e st')
      ∨ ∃ l y, call (mach (Arith.ieee p) ext) (fuel + 2) (.glob "conjugate_gradient") args st = .ok (.ref l) st' ∧ st.next ≤ l ∧ st'.heap l = some (.vec n y) ∧
        residualNorm m b y ≤ (1 + 6 * (n + 1) / 2 ^ p) * tol + 52 * (k.toNat + 1) * (n + 1) / 2 ^ p * length2 (reach m b X)) := by
  have hc := C104_call (ext := ext) (fuel := fuel) h
  rcases hr : (Arith.ieee p).conjugateGradient m b x0 tol k.toNat with f | y <;> rw [hr] at hc
  · obtain ⟨st', h1, h2⟩ := hc
    exact ⟨st', h2.world, fun l hl => h2.same l hl fun h => h, .inl ⟨_, h1⟩⟩
  obtain ⟨st', l, h1, h2, h3, h4⟩ := hc
  refine ⟨st', h4.world, fun l hl => h4.same l hl fun h => h, .inr ⟨l, y, h1, h2, h3, ?_⟩⟩
  have hup : (2⁻¹ : ℝ) ^ p * 2 ^ p = 1 := by rw [← mul_pow]; norm_num
  have hu0 : (0 : ℝ) < 2⁻¹ ^ p := by positivity
  have hinv : (2 ^ p : ℝ)⁻¹ = 2⁻¹ ^ p := by rw [inv_pow]
  have hn0 : (0 : ℝ) ≤ n := Nat.cast_nonneg n
  obtain ⟨γ, hγ⟩ : ∃ γ : ℝ, γ = 2 * ((n : ℝ) + 1) * 2⁻¹ ^ p := ⟨_, rfl⟩
  have hsm : 20 * (((n : ℝ) + 1) * 2⁻¹ ^ p) ≤ 1 := by
    have := mul_le_mul_of_nonneg_right hp hu0.le
    rw [mul_comm ((2 : ℝ) ^ p), hup] at this
    linarith
  have hle : ((1 : ℝ) + 2⁻¹ ^ p) ^ (n + 1) - 1 ≤ γ := by
    have := Arith.ieee_gamma_le (p := p) (n := n) (by linarith)
    rwa [← hγ] at this
  have hacc : (Arith.ieee p).Accurate (2⁻¹ ^ p) γ n := (Arith.ieee_accurate p n).mono le_rfl hle
  have huγ : (2⁻¹ : ℝ) ^ p ≤ γ := (Arith.ieee_le_gamma p n).trans hle
  have hγ1 : γ ≤ 1 / 10 := by rw [hγ]; linarith
  have hγ0 : 0 ≤ γ := hu0.le.trans huγ
  have hres := C125_residual hacc hu0.le huγ hγ1 hr hX
  have hlen := cgIterates_length (Arith.ieee p) m b x0 tol k.toNat
  have hKγ : ((k.toNat : ℝ) + 1) * γ ≤ 1 := by
    have := mul_le_mul_of_nonneg_right hk hu0.le
    rw [mul_comm ((2 : ℝ) ^ p), hup] at this
    rw [hγ]; linarith
  have hpow : (1 + γ) ^ ((Arith.ieee p).cgIterates m b x0 tol k.toNat).length - 1 ≤ 2 * (k.toNat + 1) * γ := by
    have b1 : (1 + γ) ^ ((Arith.ieee p).cgIterates m b x0 tol k.toNat).length ≤ (1 + γ) ^ (k.toNat + 1) := pow_le_pow_right₀ (by linarith) hlen
    have b2 : (1 + γ) ^ (k.toNat + 1) ≤ Real.exp (((k.toNat : ℝ) + 1) * γ) := by
      calc (1 + γ) ^ (k.toNat + 1) ≤ Real.exp γ ^ (k.toNat + 1) := pow_le_pow_left₀ (by linarith) (by linarith [Real.add_one_le_exp γ]) _
        _ = _ := by rw [← Real.exp_nat_mul]; push_cast; rfl
    have b3 := Real.abs_exp_sub_one_le (x := ((k.toNat : ℝ) + 1) * γ) (by rw [abs_of_nonneg (by positivity)]; exact hKγ)
    rw [abs_of_nonneg (show 0 ≤ ((k.toNat : ℝ) + 1) * γ by positivity)] at b3
    have := le_of_abs_le b3
    linarith
  have hL : 0 ≤ length2 (reach m b X) := Real.sqrt_nonneg _
  have h5 := mul_le_mul_of_nonneg_right hpow hL
  have e1 : 6 * ((n : ℝ) + 1) / 2 ^ p = 3 * γ := by rw [div_eq_mul_inv, hinv, hγ]; ring
  have e2 : 52 * ((k.toNat : ℝ) + 1) * (n + 1) / 2 ^ p = 13 * (2 * (k.toNat + 1) * γ) := by rw [div_eq_mul_inv, hinv, hγ]; ring
  rw [e1, e2]
  linarith

/-- **C125.** `C125_needed` from the text: the call returns in every precision, for every positive tolerance, the same vector, which does not solve the system. -/
theorem C125_needed_text {ext : ℕ → String → List Val → M Unit Val} (hp : 2 ≤ p) (x : Vec 1) : ∃ y : Vec 1, 0 < residualNorm !![(3 : ℝ)] ![1] y ∧ ∀ (tol : ℝ) (k : ℕ), 0 < tol →
    ∃ st' l, call (mach (Arith.ieee p) ext) (fuel + 2) (.glob "conjugate_gradient") [.ref 0, .ref 1, .none, .num tol, .int (k + 1)] (system !![3] ![1] x) = .ok (.ref l) st' ∧ st'.heap l = some (.vec 1 y) := by
  obtain ⟨y, h1, h2⟩ := C125_needed hp
  refine ⟨y, h1, fun tol k htol => ?_⟩
  have hc := C104_call (ext := ext) (fuel := fuel) (A := Arith.ieee p) (st := system !![3] ![1] x) (m := !![3]) (b := ![1]) (x0 := none) (tol := tol) (k := k + 1)
    (.five (lA := 0) (lb := 1) (vx := .none) (vt := .num tol) rfl (show 0 < 3 by decide) rfl (show 1 < 3 by decide) (show IsStart (system !![3] ![1] x) none .none from rfl) rfl _)
  have e : ((k : ℤ) + 1).toNat = k + 1 := by omega
  rw [e, h2 tol k htol] at hc
  obtain ⟨st', l, h3, -, h4, -⟩ := hc
  exact ⟨st', l, h3, h4⟩

end Py

/-- There always is a vector that bounds the values of `solution`. -/
theorem exists_box : ∀ L : List (Vec n), ∃ X : Vec n, ∀ z ∈ L, ∀ i, |z i| ≤ X i
  | [] => ⟨0, fun z hz => by simp at hz⟩
  | z :: L => by
    obtain ⟨X, hX⟩ := exists_box L
    refine ⟨fun i => max |z i| (X i), fun w hw i => ?_⟩
    rcases List.mem_cons.mp hw with rfl | hw
    · exact le_max_left _ _
    · exact (hX w hw i).trans (le_max_right _ _)

/-- `C125_residual` in double precision, on the system of `C125_needed`. -/
example : ∃ y X : Vec 1, (Arith.ieee 53).conjugateGradient !![3] ![1] none (1 / 10 ^ 5) 1000 = .ok y ∧
    residualNorm !![3] ![1] y ≤ (1 + 3 * ((1 + 2⁻¹ ^ 53) ^ 2 - 1)) * (1 / 10 ^ 5)
      + 13 * ((1 + ((1 + 2⁻¹ ^ 53) ^ 2 - 1)) ^ ((Arith.ieee 53).cgIterates !![3] ![1] none (1 / 10 ^ 5) 1000).length - 1) * length2 (reach !![3] ![1] X) := by
  obtain ⟨y, -, h⟩ := C125_needed (p := 53) (by norm_num)
  obtain ⟨X, hX⟩ := exists_box ((Arith.ieee 53).cgIterates !![3] ![1] none (1 / 10 ^ 5) 1000)
  have hy := h (1 / 10 ^ 5) 999 (by norm_num)
  exact ⟨y, X, hy, C125_residual (Arith.ieee_accurate 53 1) (by positivity) (by norm_num) (by norm_num) hy hX⟩

/-- The hypotheses of `C125_text` in double precision, with the default arguments. -/
example (ext : ℕ → String → List Py.Val → Py.M Unit Py.Val) : ∃ st' : Py.St Unit, (∀ l < 3, st'.heap l = (Py.system sampleSPD ![1, 2] 0).heap l) ∧
    ((∃ e, Py.call (Py.mach (Arith.ieee 53) ext) 2 (.glob "conjugate_gradient") [.ref 0, .ref 1] (Py.system sampleSPD ![1, 2] 0) = .exc e st')
    ∨ ∃ l, Py.call (Py.mach (Arith.ieee 53) ext) 2 (.glob "conjugate_gradient") [.ref 0, .ref 1] (Py.system sampleSPD ![1, 2] 0) = .ok (.ref l) st') := by
  obtain ⟨X, hX⟩ := exists_box ((Arith.ieee 53).cgIterates sampleSPD ![1, 2] none (Py.literal (Arith.ieee 53) 1 5 false) (1000 : ℤ).toNat)
  obtain ⟨st', -, h1, h2⟩ := Py.C125_text (ext := ext) (fuel := 0) (p := 53) (by norm_num) (.two (st := Py.system sampleSPD ![1, 2] 0) (lA := 0) (lb := 1) rfl (show 0 < 3 by decide) rfl (show 1 < 3 by decide)) (by rw [show (1000 : ℤ).toNat = 1000 from rfl]; norm_num) hX
  refine ⟨st', h1, h2.imp id ?_⟩
  rintro ⟨l, y, h3, -⟩
  exact ⟨l, h3⟩

end Ellalgo
