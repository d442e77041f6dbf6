import Verif.Lemmas.RoundedLdlt
import Verif.Props.Ldlt

/-! # C92: the LDLᵀ factorisation and its witness in floating point -/

namespace Ellalgo

open Matrix Spec LDLTMgr Finset

/-- The witness computed after a failure at row `i`. -/
theorem Arith.witness_rspec {A : Arith} {u γ : ℝ} {N : ℕ} (hA : A.Accurate u γ N) (m : LDLTMgr ℝ) {i : ℕ} (hpos : m.pos = (0, i + 1)) (hN : i + 1 ≤ N) :
    ∃ w, A.witness m = ({ m with wit := w }, .ok (-m.storage i i)) ∧ w i = 1 ∧
      ∀ k, k < i → |∑ r ∈ range (i + 1), lowerF m.storage r k * w r| ≤ γ * ∑ r ∈ Ico (k + 1) (i + 1), |m.storage r k| * |w r| := by
  obtain ⟨pos, wit, nd, st⟩ := m
  simp only at hpos
  subst hpos
  refine ⟨_, by unfold Arith.witness isSpd; rfl, ?_⟩
  simp only [Nat.add_sub_cancel]
  have := forDown_inv (lo := 0) (hi := i) (st := set1 wit i 1)
    (f := fun i' w => set1 w (i' - 1) (-A.dot (Arith.slice (fun k => st k (i' - 1)) i' (i + 1)) (Arith.slice w i' (i + 1))))
    (fun j w => w i = 1 ∧ ∀ k, j ≤ k → k < i →
      w k = -A.dot (Arith.slice (fun r => st r k) (k + 1) (i + 1)) (Arith.slice w (k + 1) (i + 1))) (Nat.zero_le i) ⟨by simp, fun k h1 h2 => by omega⟩ (by
    rintro j w h1 h2 ⟨h3, h4⟩
    refine ⟨by rw [set1_ne (by omega)]; exact h3, fun k h5 h6 => ?_⟩
    have hsl : ∀ c : ℝ, Arith.slice (set1 w (j - 1) c) (k + 1) (i + 1) = Arith.slice w (k + 1) (i + 1) := fun c => funext fun r => by
      unfold Arith.slice
      rw [set1_ne (by omega)]
    rw [hsl]
    by_cases hk : k = j - 1
    · subst hk
      rw [set1_self, Nat.sub_add_cancel (by omega)]
    · rw [set1_ne hk]
      exact h4 k (by omega) h6)
  refine ⟨this.1, fun k h2 => ?_⟩
  have hk := this.2 k (Nat.zero_le _) h2
  set w := forDown 0 (fun i' w => set1 w (i' - 1) (-A.dot (Arith.slice (fun k => st k (i' - 1)) i' (i + 1)) (Arith.slice w i' (i + 1)))) i
    (set1 wit i 1)
  have hlow : ∑ r ∈ range (i + 1), lowerF st r k * w r = ∑ r ∈ Ico k (i + 1), lowerF st r k * w r := by
    symm
    rw [range_eq_Ico]
    refine sum_subset (Ico_subset_Ico (Nat.zero_le _) le_rfl) fun r hr hr2 => ?_
    rw [mem_Ico] at hr hr2
    have : lowerF st r k = 0 := by unfold lowerF; rw [if_neg (by omega), if_neg (by omega)]
    rw [this, zero_mul]
  rw [hlow, sum_eq_sum_Ico_succ_bot (by omega)]
  have e1 : lowerF st k k = 1 := by simp [lowerF]
  have e2 : ∑ r ∈ Ico (k + 1) (i + 1), lowerF st r k * w r = ∑ r ∈ Ico (k + 1) (i + 1), st r k * w r := by
    refine sum_congr rfl fun r hr => ?_
    rw [mem_Ico] at hr
    have : lowerF st r k = st r k := by unfold lowerF; rw [if_neg (by omega), if_pos (by omega)]
    rw [this]
  have h3 := hA.dot_slice (fun r => st r k) w (lo := k + 1) (hi := i + 1) hN
  rw [e1, e2, one_mul, hk, neg_add_eq_sub, abs_sub_comm]
  exact h3

variable {A : Arith} {u γ : ℝ}

/-- Sums over all rows of a vector supported on the first `p` rows. -/
theorem sum_diag_slice {n p : ℕ} (hp : p ≤ n) (a : ℕ → ℕ → ℝ) (w : ℕ → ℝ) :
    ∑ i : Fin n, a i i * sliceVec n w 0 p i ^ 2 = ∑ r ∈ range p, a r r * w r ^ 2 := by
  rw [range_eq_Ico, ← sum_fin_slice hp (fun r => a r r * w r ^ 2)]
  refine sum_congr rfl fun i _ => ?_
  unfold sliceVec
  split_ifs <;> simp

theorem symE_comm (a : ℕ → ℕ → ℝ) (r j : ℕ) : symE a r j = symE a j r := by
  unfold symE
  rcases lt_trichotomy r j with h | h | h
  · rw [if_neg (by omega), if_pos h.le]
  · rw [h]
  · rw [if_pos h.le, if_neg (by omega)]

theorem symE_of_le (a : ℕ → ℕ → ℝ) {r j : ℕ} (h : j ≤ r) : symE a r j = a r j := if_pos h

/-- **C92.** If `factor` accepts a matrix in floating point, its quadratic form is bounded below by `-4 n γ Σ a_ii v_i²`: it is positive semidefinite up to a perturbation of relative size `4 n γ` of its diagonal. -/
theorem C92_accepted (m : LDLTMgr ℝ) (hA : A.Accurate u γ m.ndim) (hu : 0 ≤ u) (huγ : u ≤ γ) (hγ : γ ≤ 1 / 10) (a : ℕ → ℕ → ℝ) (h : (A.factor m a).2.1 = true) (v : Fin m.ndim → ℝ) :
    -(4 * m.ndim * γ * ∑ i : Fin m.ndim, a i i * v i ^ 2) ≤ v ⬝ᵥ (symOf m.ndim a *ᵥ v) := by
  have hγ0 := hu.trans huγ
  have h0 : (A.factor m a).1.pos.2 = 0 := (isSpd_iff _).mp h
  have hend := A.factor_rspec m a
  rcases hx : (A.factor m a).1.pos with ⟨p1, p2⟩
  rw [hx] at hend h0
  simp only at h0
  subst h0
  generalize (A.factor m a).1.storage = S at hend
  cases hend with
  | good hF hD =>
    have hB : ∀ r j, r < m.ndim → j < m.ndim → |symE a r j - gramF m.ndim (fun k => S k k) (lowerF S) r j| ≤ 5 / 2 * γ * gramAbs m.ndim (fun k => S k k) (lowerF S) r j := fun r j hr hj => by
      rcases le_total j r with hjr | hjr
      · rw [symE_of_le a hjr]
        exact entry_approx hA hu huγ hγ hF le_rfl hr hjr hj hD
      · have e1 : gramF m.ndim (fun k => S k k) (lowerF S) r j = gramF m.ndim (fun k => S k k) (lowerF S) j r := sum_congr rfl fun k _ => by ring
        have e2 : gramAbs m.ndim (fun k => S k k) (lowerF S) r j = gramAbs m.ndim (fun k => S k k) (lowerF S) j r := sum_congr rfl fun k _ => by ring
        rw [symE_comm, symE_of_le a hjr, e1, e2]
        exact entry_approx hA hu huγ hγ hF le_rfl hj hjr hr hD
    have hl := form_lower hD (by positivity : 0 ≤ 5 / 2 * γ) (by linarith) hB (toArr1 v)
    have hq := quad_symOf (le_refl m.ndim) a (toArr1 v) (s := 0)
    rw [sliceVec_full, ← range_eq_Ico] at hq
    rw [hq]
    have hd := sum_diag_slice (le_refl m.ndim) a (toArr1 v)
    rw [sliceVec_full] at hd
    rw [hd]
    have e3 : ∑ r ∈ range m.ndim, symE a r r * toArr1 v r ^ 2 = ∑ r ∈ range m.ndim, a r r * toArr1 v r ^ 2 := sum_congr rfl fun r _ => by rw [symE_of_le a le_rfl]
    rw [e3] at hl
    have hpos : 0 ≤ ∑ r ∈ range m.ndim, a r r * toArr1 v r ^ 2 := sum_nonneg fun r hr => by
      have h1 := (abs_le.mp (hB r r (mem_range.mp hr) (mem_range.mp hr))).1
      have e : gramAbs m.ndim (fun k => S k k) (lowerF S) r r = gramF m.ndim (fun k => S k k) (lowerF S) r r := sum_congr rfl fun k _ => by rw [mul_assoc, abs_mul_abs_self, mul_assoc]
      have h2 := gramF_self_nonneg (l := lowerF S) hD r
      rw [e, symE_of_le a le_rfl] at h1
      have : 0 ≤ a r r := by nlinarith
      positivity
    have hnn : (0 : ℝ) ≤ m.ndim := Nat.cast_nonneg _
    have h3 : 0 ≤ m.ndim * γ * ∑ r ∈ range m.ndim, a r r * toArr1 v r ^ 2 := by positivity
    linarith

/-- **C92.** If `factor` rejects a matrix in floating point, `witness` returns a nonnegative number `ep` and stores a vector `v`, with last entry exactly 1, whose quadratic form is at most `7 n γ Σ a_ii v_i²`, and which differs from `-ep` by
at most `9 n γ (Σ |a_ii| v_i² + ep)`. -/
theorem C92_rejected (m : LDLTMgr ℝ) (hA : A.Accurate u γ m.ndim) (hu : 0 ≤ u) (huγ : u ≤ γ) (hγ : 10 * m.ndim * γ ≤ 1) (a : ℕ → ℕ → ℝ) (h : (A.factor m a).2.1 = false) :
    ∃ m2 ep, A.witness (A.factor m a).1 = (m2, .ok ep) ∧ 0 ≤ ep ∧ m2.pos = (A.factor m a).1.pos ∧ m2.pos.1 < m2.pos.2 ∧ m2.pos.2 ≤ m.ndim ∧ m2.wit (m2.pos.2 - 1) = 1 ∧
      (let v := sliceVec m.ndim m2.wit m2.pos.1 m2.pos.2
       v ≠ 0 ∧ v ⬝ᵥ (symOf m.ndim a *ᵥ v) ≤ 7 * m.ndim * γ * ∑ i : Fin m.ndim, a i i * v i ^ 2 ∧
       |v ⬝ᵥ (symOf m.ndim a *ᵥ v) + ep| ≤ 9 * m.ndim * γ * (∑ i : Fin m.ndim, |a i i| * v i ^ 2 + ep)) := by
  have hγ0 := hu.trans huγ
  have h0 : (A.factor m a).1.pos.2 ≠ 0 := fun h0 => by
    have : (A.factor m a).2.1 = true := (isSpd_iff _).mpr h0
    rw [this] at h; cases h
  have hend := A.factor_rspec m a
  rcases hx : (A.factor m a).1.pos with ⟨p1, p2⟩
  rw [hx] at hend h0
  rcases hS : (A.factor m a).1.storage with S
  rw [hS] at hend
  cases hend with
  | good => exact absurd rfl h0
  | @bad _ i hi hF hD hneg =>
    have hn1 : (i : ℝ) + 1 ≤ m.ndim := by exact_mod_cast hi
    have hi0 : (0 : ℝ) ≤ i := Nat.cast_nonneg i
    have hγ1 : γ ≤ 1 / 10 := by nlinarith
    have hγi : 10 * ((i : ℝ) + 1) * γ ≤ 1 := by nlinarith
    obtain ⟨w, hw, hw1, hwr⟩ := Arith.witness_rspec hA (A.factor m a).1 hx hi
    rw [hS] at hw hwr
    refine ⟨_, _, hw, by linarith, hx, ?_⟩
    simp only [hx]
    refine ⟨Nat.succ_pos i, hi, hw1, ?_, ?_, ?_⟩
    · intro hz
      have := congrFun hz ⟨i, hi⟩
      simp [sliceVec, hw1] at this
    all_goals
      rw [quad_symOf hi, ← range_eq_Ico]
      obtain ⟨t, y, Q, E1, E2, G, hy, hQ, hT, hQe, hE1, hE2, hG0, hG, htot⟩ := form_split (l := lowerF S) hD hγ0 hγ1 (symE_comm a)
        (fun r j hjr hr hj => by rw [symE_of_le a hjr]; exact entry_approx hA hu huγ hγ1 hF hi hr hjr hj hD) hw1 (fun k hk => (hwr k hk).trans (mul_le_mul_of_nonneg_left (by
          rw [range_eq_Ico]
          refine (sum_le_sum fun r hr => ?_).trans (sum_le_sum_of_subset_of_nonneg (Ico_subset_Ico (Nat.zero_le (k + 1)) le_rfl) fun r _ _ => by positivity)
          have hr' := (mem_Ico.mp hr).1
          have : lowerF S r k = S r k := by unfold lowerF; rw [if_neg (by omega), if_pos (by omega)]
          rw [this]) hγ0))
      have hs0 := gramF_self_nonneg (l := lowerF S) hD i
      have hT' : t ^ 2 ≤ (m.ndim - 1) * (4 / 3 * Q) := hT.trans (mul_le_mul_of_nonneg_right (by linarith) (by positivity))
      have hQe' : Q = ∑ r ∈ range i, a r r * w r ^ 2 := by rw [hQe]; exact sum_congr rfl fun r _ => by rw [symE_of_le a le_rfl]
      rw [symE_of_le a le_rfl] at htot
      rw [htot]
    · rw [sum_diag_slice hi, sum_range_succ, hw1, one_pow, mul_one, ← hQe']
      exact form_arith hγ0 (by linarith) hγ hs0 hy hQ hT' (fail_approx hA hu huγ hγ1 hF hi hD hneg) hG (abs_le.mp hE1).2 (abs_le.mp hE2).2
    · rw [sum_diag_slice hi (fun r j => |a r j|), sum_range_succ, hw1, one_pow, mul_one]
      have h2 : Q ≤ ∑ r ∈ range i, |a r r| * w r ^ 2 := by
        rw [hQe']; exact sum_le_sum fun r _ => mul_le_mul_of_nonneg_right (le_abs_self _) (sq_nonneg _)
      refine (pivot_arith hγ0 (by linarith) hγ1 hs0 hy hQ hT' (by linarith) (fail_pivot hA hu huγ hγ1 hF hi hD hneg) hG0 hG hE1 hE2).trans ?_
      exact mul_le_mul_of_nonneg_left (by linarith) (by positivity)

/-- **C92.** A matrix whose quadratic form exceeds `7 n γ Σ a_ii v_i²` everywhere is accepted. -/
theorem C92_accepts (m : LDLTMgr ℝ) (hA : A.Accurate u γ m.ndim) (hu : 0 ≤ u) (huγ : u ≤ γ) (hγ : 10 * m.ndim * γ ≤ 1) (a : ℕ → ℕ → ℝ)
    (h : ∀ v : Fin m.ndim → ℝ, v ≠ 0 → 7 * m.ndim * γ * ∑ i : Fin m.ndim, a i i * v i ^ 2 < v ⬝ᵥ (symOf m.ndim a *ᵥ v)) : (A.factor m a).2.1 = true := by
  by_contra hc
  obtain ⟨m2, ep, -, -, -, -, -, -, h1, h2, -⟩ := C92_rejected m hA hu huγ hγ a (by simpa using hc)
  exact absurd (h _ h1) (not_lt.mpr h2)

/-! ### Floating point does not decide definiteness exactly -/

theorem roundBits_tie {p : ℕ} {x : ℝ} {e k : ℤ} (h1 : (2 : ℝ) ^ e ≤ x) (h2 : x < 2 ^ (e + 1)) (hk : Even k) (h : x * 2 ^ ((p : ℤ) - 1 - e) = k + 1 / 2) :
    roundBits p x = k * 2 ^ (e + 1 - p) := by
  have hx : x ≠ 0 := (lt_of_lt_of_le (zpow_pos two_pos _) h1).ne'
  have hf : ⌊(k : ℝ) + 1 / 2⌋ = k := by rw [Int.floor_eq_iff]; constructor <;> linarith
  unfold roundBits
  rw [if_neg hx, binExp_eq h1 h2, h]
  congr 2
  unfold roundHalfEven
  rw [hf, if_neg (by norm_num), if_neg (by norm_num), if_pos hk]

theorem ieee_dot_one (p : ℕ) (x y : ℕ → ℝ) : (Arith.ieee p).dot (Arith.slice x 0 1) (Arith.slice y 0 1) = roundBits p (0 + roundBits p (x 0 * y 0)) := by
  have h : (Arith.ieee p).dot (Arith.slice x 0 1) (Arith.slice y 0 1) = Fin.foldl 1 (fun s i => roundBits p (s + roundBits p (Arith.slice x 0 1 i * Arith.slice y 0 1 i))) 0 := rfl
  rw [h]
  simp [Fin.foldl_succ, Arith.slice]

theorem ieee_dot_two (p : ℕ) (x y : ℕ → ℝ) : (Arith.ieee p).dot (Arith.slice x 0 2) (Arith.slice y 0 2) = roundBits p (roundBits p (0 + roundBits p (x 0 * y 0)) + roundBits p (x 1 * y 1)) := by
  have h : (Arith.ieee p).dot (Arith.slice x 0 2) (Arith.slice y 0 2) = Fin.foldl 2 (fun s i => roundBits p (s + roundBits p (Arith.slice x 0 2 i * Arith.slice y 0 2 i))) 0 := rfl
  rw [h]
  simp [Fin.foldl_succ, Arith.slice]

/-- A positive definite matrix of doubles: `[[1, b], [b, c]]` with `b = 1 + 3·2⁻²⁸` and `c` the double next to `b²`. -/
noncomputable def nearSing (r j : ℕ) : ℝ :=
  if r = 0 then 1 else if j = 0 then 1 + 3 / 2 ^ 28 else 1 + 6 / 2 ^ 28 + 1 / 2 ^ 52

/-- An indefinite matrix of doubles: `[[1, 0, b], [0, 1, d], [b, d, c]]` with `c < b² + d²`. -/
noncomputable def nearIndef (r j : ℕ) : ℝ :=
  if r = 0 then 1 else if r = 1 then (if j = 0 then 0 else 1) else if j = 0 then 1 + 75 / 2 ^ 31 else if j = 1 then 1 / 2 + 21 / 2 ^ 28 else 5629500201107489 / 2 ^ 52

theorem rb (k : ℤ) (e : ℕ) (hk : |(k : ℝ)| < 2 ^ 53) : roundBits 53 (k / 2 ^ e) = k / 2 ^ e := by
  have := roundBits_exact (p := 53) k (-(e : ℤ)) hk
  rwa [_root_.zpow_neg, zpow_natCast, ← div_eq_mul_inv] at this

/-- **C92.** In double precision `factor` does not decide positive definiteness: a positive definite matrix of order 2 is rejected. -/
theorem C92_not_complete : ((Arith.ieee 53).factor (LDLTMgr.init 2) nearSing).2.1 = false ∧ QuadPos (symOf 2 nearSing) := by
  constructor
  · by_contra hc
    have h : ((Arith.ieee 53).factor (LDLTMgr.init 2) nearSing).2.1 = true := by simpa using hc
    have h0 : ((Arith.ieee 53).factor (LDLTMgr.init 2) nearSing).1.pos.2 = 0 := (isSpd_iff _).mp h
    have hend := (Arith.ieee 53).factor_rspec (LDLTMgr.init 2) nearSing
    rcases hx : ((Arith.ieee 53).factor (LDLTMgr.init 2) nearSing).1.pos with ⟨p1, p2⟩
    rw [hx] at hend h0
    simp only at h0
    subst h0
    generalize ((Arith.ieee 53).factor (LDLTMgr.init 2) nearSing).1.storage = S at hend
    cases hend with
    | good hF hD =>
      have hD1 : 0 < S 1 1 := hD 1 (by decide)
      have s00 : S 0 0 = 1 := hF.eq 0 0 le_rfl (by decide)
      have s01 : S 0 1 = 1 + 3 / 2 ^ 28 := by
        have := hF.eq 1 0 (by decide) (by decide)
        simpa [Arith.entryVal, nearSing] using this
      have s10 : S 1 0 = 1 + 3 / 2 ^ 28 := by
        rw [hF.low 1 0 (by decide) (by decide), s00, s01]
        change roundBits 53 ((1 + 3 / 2 ^ 28) / 1) = _
        have := rb (2 ^ 28 + 3) 28 (by norm_num)
        norm_num at this ⊢
        exact this
      have s11 : S 1 1 = 0 := by
        have := hF.eq 1 1 le_rfl (by decide)
        rw [this]
        unfold Arith.entryVal
        rw [if_neg (by decide), ieee_dot_one, s10, s01]
        have r1 : roundBits 53 ((1 + 3 / 2 ^ 28) * (1 + 3 / 2 ^ 28)) = 1 + 6 / 2 ^ 28 + 1 / 2 ^ 52 := by
          rw [roundBits_eq (e := 0) (k := 2 ^ 52 + 6 * 2 ^ 24 + 1) (by norm_num) (by norm_num) (by norm_num [abs_lt])]
          norm_num
        have r2 : roundBits 53 (1 + 6 / 2 ^ 28 + 1 / 2 ^ 52) = 1 + 6 / 2 ^ 28 + 1 / 2 ^ 52 := by
          have := rb (2 ^ 52 + 6 * 2 ^ 24 + 1) 52 (by norm_num)
          norm_num at this ⊢
          exact this
        rw [zero_add, r1, r2]
        have : nearSing 1 1 = 1 + 6 / 2 ^ 28 + 1 / 2 ^ 52 := by simp [nearSing]
        change roundBits 53 (nearSing 1 1 - _) = 0
        rw [this, sub_self, roundBits_zero]
      rw [s11] at hD1
      exact absurd hD1 (lt_irrefl 0)
  · intro v hv
    have e : v ⬝ᵥ (symOf 2 nearSing *ᵥ v) = (v 0 + (1 + 3 / 2 ^ 28) * v 1) ^ 2 + 7 / 2 ^ 56 * v 1 ^ 2 := by
      simp [dotProduct, mulVec, Fin.sum_univ_two, symOf, nearSing]
      ring
    rw [e]
    by_cases h1 : v 1 = 0
    · have h0 : v 0 ≠ 0 := fun h0 => hv (funext fun i => by fin_cases i <;> simp [h0, h1])
      rw [h1]
      have : 0 < v 0 ^ 2 := by positivity
      simpa using this
    · positivity

/-- **C92.** And a matrix of order 3 that is not even positive semidefinite is accepted. -/
theorem C92_not_sound : ((Arith.ieee 53).factor (LDLTMgr.init 3) nearIndef).2.1 = true ∧ ¬ QuadNonneg (symOf 3 nearIndef) := by
  constructor
  · by_contra hc
    have h : ((Arith.ieee 53).factor (LDLTMgr.init 3) nearIndef).2.1 = false := by simpa using hc
    have h0 : ((Arith.ieee 53).factor (LDLTMgr.init 3) nearIndef).1.pos.2 ≠ 0 := fun h0 => by
      have : ((Arith.ieee 53).factor (LDLTMgr.init 3) nearIndef).2.1 = true := (isSpd_iff _).mpr h0
      rw [this] at h; cases h
    have hend := (Arith.ieee 53).factor_rspec (LDLTMgr.init 3) nearIndef
    rcases hx : ((Arith.ieee 53).factor (LDLTMgr.init 3) nearIndef).1.pos with ⟨p1, p2⟩
    rw [hx] at hend h0
    generalize ((Arith.ieee 53).factor (LDLTMgr.init 3) nearIndef).1.storage = S at hend
    have rone : roundBits 53 1 = 1 := by have := rb 1 0 (by norm_num); norm_num at this; exact this
    cases hend with
    | good => exact absurd rfl h0
    | @bad _ i hi hF hD hneg =>
      have hi3 : i < 3 := hi
      have s00 : S 0 0 = 1 := by
        have := hF.eq 0 0 le_rfl (by omega)
        simpa [Arith.entryVal, nearIndef] using this
      have hi0 : i ≠ 0 := fun h => by rw [h, s00] at hneg; linarith
      have s01 : S 0 1 = 0 := by
        have := hF.eq 1 0 (by decide) (by omega)
        simpa [Arith.entryVal, nearIndef] using this
      have s10 : S 1 0 = 0 := by
        rw [hF.low 1 0 (by decide) (by omega), s00, s01]
        change roundBits 53 (0 / 1) = _
        simp
      have s11 : S 1 1 = 1 := by
        rw [hF.eq 1 1 le_rfl (by omega)]
        unfold Arith.entryVal
        rw [if_neg (by decide), ieee_dot_one, s10, s01]
        change roundBits 53 (nearIndef 1 1 - _) = 1
        simp [nearIndef, rone]
      have hi1 : i ≠ 1 := fun h => by rw [h, s11] at hneg; linarith
      obtain rfl : i = 2 := by omega
      have rb1 : roundBits 53 (1 + 75 / 2 ^ 31) = 1 + 75 / 2 ^ 31 := by
        have := rb (2 ^ 31 + 75) 31 (by norm_num)
        norm_num at this ⊢
        exact this
      have rb2 : roundBits 53 (1 / 2 + 21 / 2 ^ 28) = 1 / 2 + 21 / 2 ^ 28 := by
        have := rb (2 ^ 27 + 21) 28 (by norm_num)
        norm_num at this ⊢
        exact this
      have s02 : S 0 2 = 1 + 75 / 2 ^ 31 := by
        have := hF.eq 2 0 (by decide) (by decide)
        simpa [Arith.entryVal, nearIndef] using this
      have s20 : S 2 0 = 1 + 75 / 2 ^ 31 := by
        rw [hF.low 2 0 (by decide) (by decide), s00, s02]
        change roundBits 53 ((1 + 75 / 2 ^ 31) / 1) = _
        rw [div_one, rb1]
      have s12 : S 1 2 = 1 / 2 + 21 / 2 ^ 28 := by
        rw [hF.eq 2 1 (by decide) (by decide)]
        unfold Arith.entryVal
        rw [if_neg (by decide), ieee_dot_one, s20, s01]
        change roundBits 53 (nearIndef 2 1 - _) = _
        have : nearIndef 2 1 = 1 / 2 + 21 / 2 ^ 28 := by simp [nearIndef]
        rw [this, mul_zero, roundBits_zero, add_zero, roundBits_zero, sub_zero, rb2]
      have s21 : S 2 1 = 1 / 2 + 21 / 2 ^ 28 := by
        rw [hF.low 2 1 (by decide) (by decide), s11, s12]
        change roundBits 53 ((1 / 2 + 21 / 2 ^ 28) / 1) = _
        rw [div_one, rb2]
      have s22 : S 2 2 = 1 / 2 ^ 52 := by
        rw [hF.eq 2 2 le_rfl (by decide)]
        unfold Arith.entryVal
        rw [if_neg (by decide), ieee_dot_two, s20, s02, s21, s12]
        have r1 : roundBits 53 ((1 + 75 / 2 ^ 31) * (1 + 75 / 2 ^ 31)) = 4503599941943301 / 2 ^ 52 := by
          rw [roundBits_eq (e := 0) (k := 4503599941943301) (by norm_num) (by norm_num) (by norm_num [abs_lt])]
          norm_num
        have r2 : roundBits 53 ((1 / 2 + 21 / 2 ^ 28) * (1 / 2 + 21 / 2 ^ 28)) = 4503601036656750 / 2 ^ 54 := by
          rw [roundBits_eq (e := -2) (k := 4503601036656750) (by norm_num) (by norm_num) (by norm_num [abs_lt])]
          norm_num
        have r3 : roundBits 53 (4503599941943301 / 2 ^ 52) = 4503599941943301 / 2 ^ 52 := by
          have := rb 4503599941943301 52 (by norm_num)
          norm_num at this ⊢
          exact this
        have r4 : roundBits 53 (4503599941943301 / 2 ^ 52 + 4503601036656750 / 2 ^ 54) = 5629500201107488 / 2 ^ 52 := by
          rw [roundBits_tie (e := 0) (k := 5629500201107488) (by norm_num) (by norm_num) (by decide) (by norm_num)]
          norm_num
        rw [zero_add, r1, r2, r3, r4]
        have : nearIndef 2 2 = 5629500201107489 / 2 ^ 52 := by simp [nearIndef]
        change roundBits 53 (nearIndef 2 2 - _) = _
        rw [this]
        have := rb 1 52 (by norm_num)
        norm_num at this ⊢
        exact this
      rw [s22] at hneg
      norm_num at hneg
  · intro hq
    have h := hq ![-(1 + 75 / 2 ^ 31), -(1 / 2 + 21 / 2 ^ 28), 1]
    have e : symOf 3 nearIndef = ![![1, 0, 1 + 75 / 2 ^ 31], ![0, 1, 1 / 2 + 21 / 2 ^ 28], ![1 + 75 / 2 ^ 31, 1 / 2 + 21 / 2 ^ 28, 5629500201107489 / 2 ^ 52]] := by
      funext i j
      fin_cases i <;> fin_cases j <;> simp [symOf, nearIndef]
    rw [e] at h
    simp only [dotProduct, mulVec, Fin.sum_univ_three, cons_val_zero, cons_val_one, Matrix.cons_val] at h
    norm_num at h

/-- C92 in double precision: the bound of `C92_accepted` for order 3 is below `10⁻¹³`. -/
example (a : ℕ → ℕ → ℝ) (h : ((Arith.ieee 53).factor (LDLTMgr.init 3) a).2.1 = true) (v : Fin 3 → ℝ) :
    -(4 * (3 : ℕ) * ((1 + 2⁻¹ ^ 53) ^ 4 - 1) * ∑ i : Fin 3, a i i * v i ^ 2) ≤ v ⬝ᵥ (symOf 3 a *ᵥ v) ∧ 4 * (3 : ℝ) * ((1 + 2⁻¹ ^ 53) ^ 4 - 1) < 1 / 10 ^ 13 :=
  ⟨C92_accepted (LDLTMgr.init 3) (Arith.ieee_accurate 53 3) (by positivity) (by norm_num) (by norm_num) a h v, by norm_num⟩

/-- The hypotheses of `C92_rejected` hold for the matrix of `C92_not_complete`. -/
example : ∃ m2 ep, (Arith.ieee 53).witness ((Arith.ieee 53).factor (LDLTMgr.init 2) nearSing).1 = (m2, .ok ep) ∧ 0 ≤ ep := by
  obtain ⟨m2, ep, h1, h2, -⟩ := C92_rejected (LDLTMgr.init 2) (Arith.ieee_accurate 53 2) (by positivity) (by norm_num) (by show 10 * ((2 : ℕ) : ℝ) * _ ≤ 1; norm_num) nearSing C92_not_complete.1
  exact ⟨m2, ep, h1, h2⟩

/-- The identity meets the hypothesis of `C92_accepts` in double precision. -/
example : ((Arith.ieee 53).factor (LDLTMgr.init 3) fun i j => if i = j then 1 else 0).2.1 = true := by
  refine C92_accepts (LDLTMgr.init 3) (Arith.ieee_accurate 53 3) (by positivity) (by norm_num) (by show 10 * ((3 : ℕ) : ℝ) * _ ≤ 1; norm_num) _ ?_
  change ∀ v : Fin 3 → ℝ, v ≠ 0 → _
  intro v hv
  have e : symOf 3 (fun i j : ℕ => if i = j then (1 : ℝ) else 0) = 1 := by ext i j; fin_cases i <;> fin_cases j <;> simp [symOf]
  have h1 : (v : Fin 3 → ℝ) ⬝ᵥ (symOf 3 (fun i j : ℕ => if i = j then (1 : ℝ) else 0) *ᵥ v) = ∑ i : Fin 3, v i ^ 2 := by
    rw [e, one_mulVec]; exact sum_congr rfl fun i _ => by ring
  have h2 : 0 < ∑ i : Fin 3, v i ^ 2 := by
    obtain ⟨i, hi⟩ := Function.ne_iff.mp hv
    exact sum_pos' (fun i _ => sq_nonneg _) ⟨i, mem_univ i, by have : v i ≠ 0 := hi; positivity⟩
  have h3 : ∑ i : Fin 3, (if (i : ℕ) = i then (1 : ℝ) else 0) * v i ^ 2 = ∑ i : Fin 3, v i ^ 2 := sum_congr rfl fun i _ => by simp
  change 7 * ((3 : ℕ) : ℝ) * _ * ∑ i : Fin 3, (if (i : ℕ) = i then (1 : ℝ) else 0) * v i ^ 2 < (v : Fin 3 → ℝ) ⬝ᵥ (symOf 3 (fun i j : ℕ => if i = j then (1 : ℝ) else 0) *ᵥ v)
  rw [h1, h3]
  have h4 : 7 * ((3 : ℕ) : ℝ) * ((1 + 2⁻¹ ^ 53) ^ (3 + 1) - 1) < 1 := by norm_num
  nlinarith

end Ellalgo
