import Verif.Spec.RoundedCholesky
import Verif.Props.SourceLdlt
import Verif.Props.SourceConverge

/-!
# C124: the Cholesky factor of `LDLTMgr.sqrt` in floating point

`sqrt` scales the rows of the computed `Lᵀ` with the computed square roots of the pivots. The product of the result with its transpose agrees with the matrix entry by entry, relative to the geometric mean of the two diagonal entries, however ill-conditioned the matrix is.
-/

namespace Ellalgo

open Finset Matrix Spec LDLTMgr

namespace Arith

variable {A : Arith}

/-- The `i`-th pass of the loop in `sqrt`. -/
theorem sqrtRow_rspec {S : ℕ → ℕ → ℝ} {n i : ℕ} (hi : i < n) (h0 : 0 ≤ S i i) (R : ℕ → ℕ → ℝ) :
    ∃ R', A.sqrtRow S n i R = .ok R' ∧ (∀ r c, r ≠ i → R' r c = R r c) ∧ (∀ c, c < i → R' i c = R i c) ∧ R' i i = A.rnd (Real.sqrt (S i i)) ∧
      ∀ c, i < c → c < n → R' i c = A.mul (S c i) (A.rnd (Real.sqrt (S i i))) := by
  refine ⟨_, by rw [sqrtRow, if_neg (not_lt.mpr h0)], ?_⟩
  exact forRange_inv (lo := i + 1) (hi := n) (st := set2 R i i (A.rnd (Real.sqrt (S i i)))) (f := fun j R => set2 R i j (A.mul (S j i) (R i i)))
    (fun j R' => (∀ r c, r ≠ i → R' r c = R r c) ∧ (∀ c, c < i → R' i c = R i c) ∧ R' i i = A.rnd (Real.sqrt (S i i)) ∧
      ∀ c, i < c → c < j → R' i c = A.mul (S c i) (A.rnd (Real.sqrt (S i i)))) hi
    ⟨fun r c hr => set2_ne (.inl hr), fun c hc => set2_ne (.inr (by omega)), by simp, fun c h1 h2 => by omega⟩ (by
    rintro j R' h1 h2 ⟨h3, h4, h5, h6⟩
    refine ⟨fun r c hr => ?_, fun c hc => ?_, ?_, fun c h7 h8 => ?_⟩
    · rw [set2_ne (.inl hr)]; exact h3 r c hr
    · rw [set2_ne (.inr (by omega))]; exact h4 c hc
    · rw [set2_ne (.inr (by omega))]; exact h5
    · rcases Nat.lt_succ_iff_lt_or_eq.mp h8 with h9 | rfl
      · rw [set2_ne (.inr (by omega))]; exact h6 c h7 h9
      · rw [set2_self, h5])

/-- Rows `0 .. j-1` are done. -/
def SqrtDone (A : Arith) (S : ℕ → ℕ → ℝ) (n j : ℕ) (R : ℕ → ℕ → ℝ) : Prop := (∀ r c, j ≤ r → R r c = 0) ∧ ∀ r, r < j →
  (∀ c, c < r → R r c = 0) ∧ R r r = A.rnd (Real.sqrt (S r r)) ∧ ∀ c, r < c → c < n → R r c = A.mul (S c r) (A.rnd (Real.sqrt (S r r)))

theorem sqrtLoop_rspec {S : ℕ → ℕ → ℝ} {n : ℕ} (h0 : ∀ k, k < n → 0 ≤ S k k) : ∀ (len i : ℕ) (R : ℕ → ℕ → ℝ), i + len = n → A.SqrtDone S n i R →
    ∃ R', A.sqrtLoop S n len i R = .ok R' ∧ A.SqrtDone S n n R'
  | 0, i, R, h, hR => ⟨R, rfl, (show i = n by omega) ▸ hR⟩
  | len + 1, i, R, h, hR => by
    obtain ⟨R1, h1, s1, s2, s3, s4⟩ := sqrtRow_rspec (A := A) (S := S) (n := n) (i := i) (by omega) (h0 i (by omega)) R
    rw [sqrtLoop, h1]
    refine sqrtLoop_rspec h0 len (i + 1) R1 (by omega) ⟨fun r c hr => by rw [s1 r c (by omega)]; exact hR.1 r c (by omega), fun r hr => ?_⟩
    rcases Nat.lt_succ_iff_lt_or_eq.mp hr with hr | rfl
    · obtain ⟨a1, a2, a3⟩ := hR.2 r hr
      exact ⟨fun c hc => by rw [s1 r c (by omega)]; exact a1 c hc, by rw [s1 r r (by omega)]; exact a2, fun c hc hc2 => by rw [s1 r c (by omega)]; exact a3 c hc hc2⟩
    · exact ⟨fun c hc => by rw [s2 c hc]; exact hR.1 r c le_rfl, s3, s4⟩

end Arith

/-- Two factors with small relative errors. -/
theorem two_errs {u x y a b : ℝ} (hu : 0 ≤ u) (hu1 : u ≤ 1 / 10) (hx : |x - a| ≤ 21 / 10 * u * |a|) (hy : |y - b| ≤ 21 / 10 * u * |b|) : |x * y - a * b| ≤ 47 / 10 * u * (|a| * |b|) := by
  have e : x * y - a * b = (x - a) * (y - b) + (x - a) * b + a * (y - b) := by ring
  have h1 : |(x - a) * (y - b)| ≤ (21 / 10 * u * |a|) * (21 / 10 * u * |b|) := by
    rw [abs_mul]; exact mul_le_mul hx hy (abs_nonneg _) (by positivity)
  have h2 : |(x - a) * b| ≤ (21 / 10 * u * |a|) * |b| := by rw [abs_mul]; exact mul_le_mul_of_nonneg_right hx (abs_nonneg _)
  have h3 : |a * (y - b)| ≤ |a| * (21 / 10 * u * |b|) := by rw [abs_mul]; exact mul_le_mul_of_nonneg_left hy (abs_nonneg _)
  have h4 := abs_add_le ((x - a) * (y - b) + (x - a) * b) (a * (y - b))
  have h5 := abs_add_le ((x - a) * (y - b)) ((x - a) * b)
  have h6 : 0 ≤ |a| * |b| := by positivity
  have h7 : u * u * (|a| * |b|) ≤ 1 / 10 * u * (|a| * |b|) := by
    refine mul_le_mul_of_nonneg_right ?_ h6
    nlinarith
  rw [e]
  have h8 : 0 ≤ u * (|a| * |b|) := by positivity
  nlinarith

/-- An entry of the computed factor. -/
theorem sqrt_entry {A : Arith} {u γ : ℝ} {N n : ℕ} (hA : A.Accurate u γ N) (hu : 0 ≤ u) (hu1 : u ≤ 1 / 10) {S R : ℕ → ℕ → ℝ} (hR : A.SqrtDone S n n R) {k c : ℕ} (hk : k < n) (hc : c < n) :
    |R k c - lowerF S c k * Real.sqrt (S k k)| ≤ 21 / 10 * u * |lowerF S c k * Real.sqrt (S k k)| := by
  obtain ⟨h1, h2, h3⟩ := hR.2 k hk
  have hr := hA.rnd (Real.sqrt (S k k))
  have hs := Real.sqrt_nonneg (S k k)
  rw [abs_of_nonneg hs] at hr
  unfold lowerF
  rcases lt_trichotomy k c with hkc | rfl | hkc
  · rw [if_neg hkc.ne, if_pos hkc, h3 c hkc hc]
    have hm := hA.rnd (S c k * A.rnd (Real.sqrt (S k k)))
    have e1 : |S c k * A.rnd (Real.sqrt (S k k)) - S c k * Real.sqrt (S k k)| ≤ u * |S c k * Real.sqrt (S k k)| := by
      rw [← mul_sub, abs_mul, abs_mul, abs_of_nonneg hs]
      have := mul_le_mul_of_nonneg_left hr (abs_nonneg (S c k))
      linarith
    show |A.rnd (S c k * A.rnd (Real.sqrt (S k k))) - _| ≤ _
    generalize S c k * A.rnd (Real.sqrt (S k k)) = w at *
    generalize S c k * Real.sqrt (S k k) = z at *
    have e2 : |w| ≤ (1 + u) * |z| := by
      have := abs_add_le (w - z) z
      rw [sub_add_cancel] at this
      linarith
    have e3 := abs_sub_le (A.rnd w) w z
    have e4 := mul_le_mul_of_nonneg_left e2 hu
    have e5 : u * (u * |z|) ≤ 1 / 10 * (u * |z|) := mul_le_mul_of_nonneg_right hu1 (by positivity)
    linarith
  · rw [if_pos rfl, one_mul, h2, abs_of_nonneg hs]
    have : 0 ≤ u * Real.sqrt (S k k) := by positivity
    linarith
  · rw [if_neg hkc.ne', if_neg (not_lt.mpr hkc.le), zero_mul, h1 c hkc]
    simp

/-- **C124.** If `factor` accepts in floating point, then `sqrt()` does not raise, and returns an upper triangular matrix `R` with a positive diagonal with `|(RᵀR - A)_ij| ≤ 10 γ √(a_ii a_jj)`. If it rejects, `sqrt()` raises `AssertionError`. -/
theorem C124_sqrt {A : Arith} {u γ : ℝ} (m : LDLTMgr ℝ) (hA : A.Accurate u γ m.ndim) (hu : 0 ≤ u) (huγ : u ≤ γ) (hγ : γ ≤ 1 / 10) (a : ℕ → ℕ → ℝ) :
    ((A.factor m a).2.1 = true → ∃ R, A.ldltSqrt (A.factor m a).1 = .ok R ∧ NearCholesky (symOf m.ndim a) (10 * γ) (Matrix.of fun i j : Fin m.ndim => R i j)) ∧
    ((A.factor m a).2.1 = false → A.ldltSqrt (A.factor m a).1 = .error .assertion) := by
  refine ⟨fun h => ?_, fun h => ?_⟩
  swap
  · have : (A.factor m a).1.isSpd = false := h
    rw [Arith.ldltSqrt, this]; rfl
  have hspd : (A.factor m a).1.isSpd = true := h
  have hγ0 := hu.trans huγ
  have h0 : (A.factor m a).1.pos.2 = 0 := (isSpd_iff _).mp h
  have hend := A.factor_rspec m a
  rcases hx : (A.factor m a).1.pos with ⟨p1, p2⟩
  rw [hx] at hend h0
  simp only at h0
  subst h0
  have hdim : (A.factor m a).1.ndim = m.ndim := rfl
  rw [Arith.ldltSqrt, if_pos hspd, hdim]
  generalize (A.factor m a).1.storage = S at hend
  cases hend with
  | good hF hD =>
    obtain ⟨R, h1, hR⟩ := Arith.sqrtLoop_rspec (A := A) (fun k hk => (hD k hk).le) m.ndim 0 (fun _ _ => 0) (by omega) ⟨fun _ _ _ => rfl, fun _ h => absurd h (Nat.not_lt_zero _)⟩
    refine ⟨R, h1, fun i j hji => (hR.2 i i.2).1 j hji, fun i => ?_, fun i j => ?_⟩
    · have h2 : R i i = A.rnd (Real.sqrt (S i i)) := (hR.2 i i.2).2.1
      have h3 := hA.rnd (Real.sqrt (S i i))
      have h4 := Real.sqrt_pos.mpr (hD i i.2)
      rw [abs_of_pos h4] at h3
      show 0 < R i i
      rw [h2]
      have := (abs_le.mp h3).1
      nlinarith
    · have hB : ∀ r j, r < m.ndim → j < m.ndim → |symE a r j - gramF m.ndim (fun k => S k k) (lowerF S) r j| ≤ 5 / 2 * γ * gramAbs m.ndim (fun k => S k k) (lowerF S) r j := fun r j hr hj => by
        rcases le_total j r with hjr | hjr
        · rw [symE_of_le a hjr]
          exact entry_approx hA hu huγ hγ hF le_rfl hr hjr hj hD
        · have e1 : gramF m.ndim (fun k => S k k) (lowerF S) r j = gramF m.ndim (fun k => S k k) (lowerF S) j r := sum_congr rfl fun k _ => by ring
          have e2 : gramAbs m.ndim (fun k => S k k) (lowerF S) r j = gramAbs m.ndim (fun k => S k k) (lowerF S) j r := sum_congr rfl fun k _ => by ring
          rw [symE_comm, symE_of_le a hjr, e1, e2]
          exact entry_approx hA hu huγ hγ hF le_rfl hj hjr hr hD
      have hP : |∑ k ∈ range m.ndim, R k i * R k j - gramF m.ndim (fun k => S k k) (lowerF S) i j| ≤ 47 / 10 * u * gramAbs m.ndim (fun k => S k k) (lowerF S) i j := by
        unfold gramF gramAbs
        rw [← sum_sub_distrib, mul_sum]
        refine (abs_sum_le_sum_abs _ _).trans (sum_le_sum fun k hk => ?_)
        have hk' := mem_range.mp hk
        have := two_errs hu (huγ.trans hγ) (sqrt_entry hA hu (huγ.trans hγ) hR hk' i.2) (sqrt_entry hA hu (huγ.trans hγ) hR hk' j.2)
        have e := Real.mul_self_sqrt (hD k hk').le
        have e1 : lowerF S i k * Real.sqrt (S k k) * (lowerF S j k * Real.sqrt (S k k)) = S k k * lowerF S i k * lowerF S j k := by
          rw [show lowerF S i k * Real.sqrt (S k k) * (lowerF S j k * Real.sqrt (S k k)) = (Real.sqrt (S k k) * Real.sqrt (S k k)) * lowerF S i k * lowerF S j k by ring, e]
        have e2 : |lowerF S i k * Real.sqrt (S k k)| * |lowerF S j k * Real.sqrt (S k k)| = S k k * |lowerF S i k| * |lowerF S j k| := by
          rw [← abs_mul, e1, abs_mul, abs_mul, abs_of_pos (hD k hk')]
        rwa [e1, e2] at this
      have hself : ∀ r : Fin m.ndim, gramF m.ndim (fun k => S k k) (lowerF S) r r ≤ 4 / 3 * symOf m.ndim a r r := fun r => by
        have h1 := (abs_le.mp (hB r r r.2 r.2)).1
        have e : gramAbs m.ndim (fun k => S k k) (lowerF S) r r = gramF m.ndim (fun k => S k k) (lowerF S) r r := sum_congr rfl fun k _ => by rw [mul_assoc, abs_mul_abs_self, mul_assoc]
        have h2 := gramF_self_nonneg (l := lowerF S) hD r
        rw [e] at h1
        have e3 : symOf m.ndim a r r = symE a r r := rfl
        rw [e3]
        nlinarith
      have hG := gramAbs_le (l := lowerF S) hD i j
      have hs : Real.sqrt (gramF m.ndim (fun k => S k k) (lowerF S) i i) * Real.sqrt (gramF m.ndim (fun k => S k k) (lowerF S) j j) ≤ 4 / 3 * (Real.sqrt (symOf m.ndim a i i) * Real.sqrt (symOf m.ndim a j j)) := by
        have h5 := mul_le_mul (Real.sqrt_le_sqrt (hself i)) (Real.sqrt_le_sqrt (hself j)) (Real.sqrt_nonneg _) (Real.sqrt_nonneg _)
        rw [Real.sqrt_mul (by norm_num), Real.sqrt_mul (by norm_num)] at h5
        have h6 := Real.mul_self_sqrt (show (0 : ℝ) ≤ 4 / 3 by norm_num)
        calc _ ≤ _ := h5
          _ = Real.sqrt (4 / 3) * Real.sqrt (4 / 3) * (Real.sqrt (symOf m.ndim a i i) * Real.sqrt (symOf m.ndim a j j)) := by ring
          _ = _ := by rw [h6]
      have hprod : ((Matrix.of fun i j : Fin m.ndim => R i j)ᵀ * (Matrix.of fun i j : Fin m.ndim => R i j)) i j = ∑ k ∈ range m.ndim, R k i * R k j := by
        rw [Matrix.mul_apply, Finset.sum_range]
        rfl
      rw [hprod]
      have hB' := hB i j i.2 j.2
      have e3 : symOf m.ndim a i j = symE a i j := rfl
      rw [e3]
      have hGp : 0 ≤ gramAbs m.ndim (fun k => S k k) (lowerF S) i j := sum_nonneg fun k hk => by
        have := (hD k (mem_range.mp hk)).le; positivity
      have h7 := abs_sub_le (∑ k ∈ range m.ndim, R k i * R k j) (gramF m.ndim (fun k => S k k) (lowerF S) i j) (symE a i j)
      rw [abs_sub_comm (gramF m.ndim (fun k => S k k) (lowerF S) i j)] at h7
      have h8 := mul_le_mul_of_nonneg_right huγ hGp
      have h9 := mul_le_mul_of_nonneg_left (hG.trans hs) hγ0
      have h10 : 0 ≤ γ * (Real.sqrt (symOf m.ndim a i i) * Real.sqrt (symOf m.ndim a j j)) := by positivity
      linarith

namespace Py

section

variable {W : Type} {n p : ℕ} {ext : ℕ → String → List Val → M W Val} {fuel : ℕ}

/-- **C124.** `mgr = LDLTMgr(n)`, `mgr.factorize(mat)`, `mgr.sqrt()` from the text on machine numbers with `2^p ≥ 20 (n+1)`: `factorize` returns `True` if the matrix is positive definite by more than `14 n (n+1) 2^-p` of its diagonal and `2^p ≥ 20 n (n+1)`;
when it has returned `True`, `sqrt` returns a new array with a Cholesky factor up to `20 (n+1) 2^-p`, and otherwise it raises `AssertionError`. -/
theorem C124_text (hp : 20 * ((n : ℝ) + 1) ≤ 2 ^ p) {st : St W} {k : ℕ} {M : Matrix (Fin n) (Fin n) ℝ} (hM : M.IsSymm) (hk : ArrayAt st k M) :
    ∃ s1 s2, ∃ b : Bool, call (mach (Arith.ieee p) ext) (fuel + 2) (.glob "LDLTMgr") [.int n] st = .ok (.ref st.next) s1
      ∧ call (mach (Arith.ieee p) ext) (fuel + 3) (.meth (.ref st.next) "factorize") [.ref k] s1 = .ok (.bool b) s2
      ∧ (20 * n * ((n : ℝ) + 1) ≤ 2 ^ p → DefiniteBy M (14 * n * ((n : ℝ) + 1) / 2 ^ p) → b = true)
      ∧ (b = true → ∃ s3 R, call (mach (Arith.ieee p) ext) (fuel + 2) (.meth (.ref st.next) "sqrt") [] s2 = .ok (.ref s2.next) s3 ∧ ArrayAt s3 s2.next R ∧ (∀ j < s2.next, s3.heap j = s2.heap j)
        ∧ NearCholesky M (20 * ((n : ℝ) + 1) / 2 ^ p) R)
      ∧ (b = false → ∃ s3, call (mach (Arith.ieee p) ext) (fuel + 2) (.meth (.ref st.next) "sqrt") [] s2 = .exc "AssertionError" s3) := by
  have hup : (2⁻¹ : ℝ) ^ p * 2 ^ p = 1 := by rw [← mul_pow]; norm_num
  have hu0 : (0 : ℝ) < 2⁻¹ ^ p := by positivity
  have hinv : (2 ^ p : ℝ)⁻¹ = 2⁻¹ ^ p := by rw [inv_pow]
  have hn0 : (0 : ℝ) ≤ n := Nat.cast_nonneg n
  have hp2 : 2 ≤ p := by
    by_contra hlt
    have : (2 : ℝ) ^ p ≤ 2 ^ 1 := pow_le_pow_right₀ one_le_two (by omega)
    linarith
  obtain ⟨γ, hγ⟩ : ∃ γ : ℝ, γ = 2 * ((n : ℝ) + 1) * 2⁻¹ ^ p := ⟨_, rfl⟩
  have hsm : 20 * (((n : ℝ) + 1) * 2⁻¹ ^ p) ≤ 1 := by
    have := mul_le_mul_of_nonneg_right hp hu0.le
    rw [mul_comm ((2 : ℝ) ^ p), hup] at this
    linarith
  have hle : ((1 : ℝ) + 2⁻¹ ^ p) ^ (n + 1) - 1 ≤ γ := by
    have := Arith.ieee_gamma_le (p := p) (n := n) (by linarith)
    rwa [← hγ] at this
  have hacc : (Arith.ieee p).Accurate (2⁻¹ ^ p) γ n := (Arith.ieee_accurate p n).mono le_rfl hle
  have huγ : (2⁻¹ : ℝ) ^ p ≤ γ := (Arith.ieee_le_gamma p n).trans hle
  have hγ1 : γ ≤ 1 / 10 := by rw [hγ]; linarith
  obtain ⟨s1, lw, ls, h1, h2, hw, hs, hf⟩ := new_mgr (A := Arith.ieee p) (ext := ext) (fuel := fuel) n (st := st)
  have hk1 : s1.heap k = some (.square n (toArr2 M)) := by rw [hf.same k hk.2 not_false, hk.1, square_toArr2']
  obtain ⟨s2, h3, h4, -⟩ := mgr_factorize (A := Arith.ieee p) (ext := ext) (fuel := fuel) (literals_ieee hp2) h2 (k := k) hk1 (hk.2.trans_le hf.next) (by
    rintro (h | h | h) <;> have := hk.2 <;> omega)
  have hr := mgr_sqrt (A := Arith.ieee p) (ext := ext) (fuel := fuel) h4
  obtain ⟨c1, c2⟩ := C124_sqrt (LDLTMgr.init n) hacc hu0.le huγ hγ1 (toArr2 M)
  refine ⟨s1, s2, _, h1, h3, fun hp' hdef => ?_, fun hb => ?_, fun hb => ?_⟩
  · by_contra hb
    have hb := Bool.not_eq_true _ ▸ hb
    have hpn : 10 * n * γ ≤ 1 := by
      have := mul_le_mul_of_nonneg_right hp' hu0.le
      rw [mul_comm ((2 : ℝ) ^ p), hup] at this
      rw [hγ]; linarith
    obtain ⟨v, hv, h6⟩ := factorize_rejected (LDLTMgr.init n) rfl hacc hu0.le huγ hpn hM hb
    have h7 := hdef v hv
    rw [div_eq_mul_inv, hinv] at h7
    rw [hγ] at h6
    have e : 14 * (n : ℝ) * (n + 1) * 2⁻¹ ^ p = 7 * n * (2 * (n + 1) * 2⁻¹ ^ p) := by ring
    rw [e] at h7
    exact absurd h7 (not_lt.mpr h6)
  · obtain ⟨R, h5, h6⟩ := c1 hb
    rw [h5] at hr
    obtain ⟨s3, h7, h8, h9, h10⟩ := hr
    refine ⟨s3, Matrix.of fun i j => R i j, h7, ⟨h8, h9⟩, fun j hj => h10.same j hj not_false, ?_⟩
    replace h6 : NearCholesky (symOf n (toArr2 M)) (10 * γ) (Matrix.of fun i j : Fin n => R i j) := h6
    rw [symOf_toArr2 hM] at h6
    have e : 20 * ((n : ℝ) + 1) / 2 ^ p = 10 * γ := by rw [div_eq_mul_inv, hinv, hγ]; ring
    rw [e]
    exact h6
  · rw [c2 hb] at hr
    obtain ⟨s3, h5, -⟩ := hr
    exact ⟨s3, h5⟩

end

/-- `C124_text` in double precision, on `[[2, 1], [1, 2]]`. -/
example (ext : ℕ → String → List Val → M Unit Val) : ∃ s1 s2 s3, ∃ R : Matrix (Fin 2) (Fin 2) ℝ, call (mach (Arith.ieee 53) ext) 2 (.glob "LDLTMgr") [.int 2] matHeap = .ok (.ref 2) s1
    ∧ call (mach (Arith.ieee 53) ext) 3 (.meth (.ref 2) "factorize") [.ref 0] s1 = .ok (.bool true) s2
    ∧ call (mach (Arith.ieee 53) ext) 2 (.meth (.ref 2) "sqrt") [] s2 = .ok (.ref s2.next) s3 ∧ ArrayAt s3 s2.next R ∧ NearCholesky !![2, 1; 1, 2] (60 / 2 ^ 53) R := by
  have hM : (!![2, 1; 1, 2] : Matrix (Fin 2) (Fin 2) ℝ).IsSymm := by ext i j; fin_cases i <;> fin_cases j <;> rfl
  obtain ⟨s1, s2, b, h1, h2, h3, h4, -⟩ := C124_text (ext := ext) (fuel := 0) (p := 53) (by norm_num) hM matHeap_zero
  have hb : b = true := h3 (by norm_num) fun v hv => by
    have : v 0 ≠ 0 ∨ v 1 ≠ 0 := by
      by_contra hc
      push Not at hc
      exact hv (by ext i; fin_cases i; exacts [hc.1, hc.2])
    simp only [dotProduct, mulVec, Fin.sum_univ_two]
    norm_num
    rcases this with h | h
    · nlinarith [sq_nonneg (v 0 + v 1), sq_nonneg (v 1), (sq_pos_iff.mpr h)]
    · nlinarith [sq_nonneg (v 0 + v 1), sq_nonneg (v 0), (sq_pos_iff.mpr h)]
  obtain ⟨s3, R, h5, h6, -, h7⟩ := h4 hb
  subst hb
  refine ⟨s1, s2, s3, R, h1, h2, h5, h6, ?_⟩
  norm_num at h7 ⊢
  exact h7

end Py

/-- The hypotheses of `C124_sqrt` hold in double precision: accepting, for `[[2]]`, and rejecting, for the matrix of `C92_not_complete`. -/
example : (∃ R, (Arith.ieee 53).ldltSqrt ((Arith.ieee 53).factor (LDLTMgr.init 1) fun _ _ => 2).1 = .ok R) ∧ (Arith.ieee 53).ldltSqrt ((Arith.ieee 53).factor (LDLTMgr.init 2) nearSing).1 = .error .assertion := by
  refine ⟨?_, (C124_sqrt (LDLTMgr.init 2) (Arith.ieee_accurate 53 2) (by positivity) (by norm_num) (by norm_num) nearSing).2 C92_not_complete.1⟩
  have h : ((Arith.ieee 53).factor (LDLTMgr.init 1) fun _ _ => 2).2.1 = true := by
    refine C92_accepts (LDLTMgr.init 1) (Arith.ieee_accurate 53 1) (by positivity) (by norm_num) (by show 10 * ((1 : ℕ) : ℝ) * _ ≤ 1; norm_num) _ ?_
    change ∀ v : Fin 1 → ℝ, v ≠ 0 → 7 * ((1 : ℕ) : ℝ) * _ * ∑ i : Fin 1, (2 : ℝ) * v i ^ 2 < v ⬝ᵥ (symOf 1 (fun _ _ => (2 : ℝ)) *ᵥ v)
    intro v hv
    have h0 : v 0 ≠ 0 := fun h => hv (by ext i; fin_cases i; exact h)
    have := sq_pos_iff.mpr h0
    simp only [dotProduct, mulVec, symOf, Matrix.of_apply, Fin.sum_univ_one]
    norm_num
    nlinarith
  obtain ⟨R, h1, -⟩ := (C124_sqrt (LDLTMgr.init 1) (Arith.ieee_accurate 53 1) (by positivity) (by norm_num) (by norm_num) (fun _ _ => 2)).1 h
  exact ⟨R, h1⟩

end Ellalgo
