import Verif.Spec.RoundedBSearch
import Verif.Lemmas.RoundMono
import Verif.Props.SourcePairConverge
import Verif.Props.SourceBSearch

/-!
# C117: bisection on machine numbers

`bsearch` computes `tau = (upper - lower) / 2` and `gamma = lower + tau` with rounding errors.
-/

namespace Ellalgo

open Finset Matrix Spec CuttingPlane Py

theorem isFloat_iff {p : ℕ} (hp : 1 ≤ p) {x : ℝ} : IsFloat p x ↔ (Arith.ieee p).rnd x = x := by
  constructor
  · rintro ⟨k, e, rfl, hk⟩
    exact roundBits_exact k e hk
  · intro h
    obtain ⟨k, e, h1, h2⟩ := roundBits_form hp x
    exact ⟨k, e, h.symm.trans h1, h2⟩

theorem ieee_two {p : ℕ} (hp : 2 ≤ p) : (Arith.ieee p).rnd 2 = 2 := by
  have h1 : (4 : ℝ) ≤ 2 ^ p := by
    calc (4 : ℝ) = 2 ^ 2 := by norm_num
      _ ≤ 2 ^ p := pow_le_pow_right₀ one_le_two hp
  have := roundBits_exact (p := p) 2 0 (by norm_num; linarith)
  show roundBits p 2 = 2
  simpa using this

section numbers

variable {p : ℕ} {lo up M tol : ℝ}

/-- The half-width is rounded once. -/
theorem float_tau (hp : 2 ≤ p) : (floatNum (Arith.ieee p) tol).tau lo up = roundBits p (up - lo) / 2 := by
  show roundBits p (roundBits p (up - lo) / (Arith.ieee p).rnd 2) = _
  rw [ieee_two hp, roundBits_half (by omega) (roundBits_idem (by omega) _)]

theorem float_tau_bounds (hp : 2 ≤ p) (h : lo ≤ up) :
    (1 - 2⁻¹ ^ p) * (up - lo) ≤ 2 * (floatNum (Arith.ieee p) tol).tau lo up ∧ 2 * (floatNum (Arith.ieee p) tol).tau lo up ≤ (1 + 2⁻¹ ^ p) * (up - lo) := by
  rw [float_tau hp]
  have h1 := abs_le.mp (abs_roundBits_sub_le p (up - lo))
  rw [abs_of_nonneg (by linarith : (0 : ℝ) ≤ up - lo)] at h1
  constructor <;> linarith [h1.1, h1.2]

/-- The value that is tested lies between the bounds, and is their mean up to two rounding errors. -/
theorem float_mid (hp : 2 ≤ p) (h : lo ≤ up) (hlo : IsFloat p lo) (hup : IsFloat p up) (h1 : |lo| ≤ M) (h2 : |up| ≤ M) :
    let γ := (floatNum (Arith.ieee p) tol).mid lo ((floatNum (Arith.ieee p) tol).tau lo up)
    lo ≤ γ ∧ γ ≤ up ∧ IsFloat p γ ∧ |γ - (lo + up) / 2| ≤ 2 * 2⁻¹ ^ p * M := by
  have hu0 : (0 : ℝ) ≤ 2⁻¹ ^ p := by positivity
  have hu1 : (2⁻¹ : ℝ) ^ p ≤ 1 := pow_le_one₀ (by norm_num) (by norm_num)
  obtain ⟨b1, b2⟩ := float_tau_bounds (tol := tol) hp h
  generalize ht : (floatNum (Arith.ieee p) tol).tau lo up = t at *
  intro γ
  have hγ : γ = roundBits p (lo + t) := rfl
  have hw : 0 ≤ up - lo := by linarith
  have k1 : lo ≤ lo + t := by nlinarith
  have k2 : lo + t ≤ up := by nlinarith
  have hm := roundBits_mono (p := p) (by omega)
  have e1 : roundBits p lo = lo := (isFloat_iff (by omega)).mp hlo
  have e2 : roundBits p up = up := (isFloat_iff (by omega)).mp hup
  have hM : |lo + t| ≤ M := abs_le.mpr ⟨by linarith [(abs_le.mp h1).1], by linarith [(abs_le.mp h2).2]⟩
  refine ⟨?_, ?_, ?_, ?_⟩
  · have := hm k1; rw [e1] at this; exact this
  · have := hm k2; rw [e2] at this; exact this
  · exact (isFloat_iff (by omega)).mpr (roundBits_idem (by omega) _)
  · have h3 := abs_roundBits_sub_le p (lo + t)
    rw [← hγ] at h3
    have h4 := h3.trans (mul_le_mul_of_nonneg_left hM hu0)
    have h5 : |lo + t - (lo + up) / 2| ≤ 2⁻¹ ^ p * M := by
      have : up - lo ≤ 2 * M := by linarith [(abs_le.mp h1).1, (abs_le.mp h2).2]
      rw [abs_le]; constructor <;> nlinarith
    calc |γ - (lo + up) / 2| = |(γ - (lo + t)) + (lo + t - (lo + up) / 2)| := by congr 1; ring
      _ ≤ _ := abs_add_le _ _
      _ ≤ _ := by linarith

end numbers

variable {O : Type*} {n p : ℕ}

/-- The bounds stay ordered numbers with `p` bits, inside of the first ones; their distance is halved up to rounding errors that do not accumulate. -/
theorem bsTrace_float {omega : OracleBS O ℝ} {lo up M tol : ℝ} (hp : 2 ≤ p) (h : lo ≤ up) (hlo : IsFloat p lo) (hup : IsFloat p up) (h1 : |lo| ≤ M) (h2 : |up| ≤ M) {o o1 : O} {l : List (ℝ × Bool)} {lo1 up1 : ℝ}
    (ht : BSTrace omega (floatNum (Arith.ieee p) tol) o lo up l o1 lo1 up1) :
    lo ≤ lo1 ∧ lo1 ≤ up1 ∧ up1 ≤ up ∧ IsFloat p lo1 ∧ IsFloat p up1 ∧ up1 - lo1 ≤ (up - lo) / 2 ^ l.length + 4 * 2⁻¹ ^ p * M ∧ ∀ t ∈ l, lo ≤ t.1 ∧ t.1 ≤ up ∧ IsFloat p t.1 := by
  have hu0 : (0 : ℝ) ≤ 2⁻¹ ^ p := by positivity
  have hM : 0 ≤ M := (abs_nonneg _).trans h1
  induction ht with
  | start => exact ⟨le_rfl, h, le_rfl, hlo, hup, by simp; positivity, by simp⟩
  | @step l o1 o2 lo1 up1 b t a c ih =>
    obtain ⟨i1, i2, i3, i4, i5, i6, i7⟩ := ih
    obtain ⟨m1, m2, m3, m4⟩ := float_mid (tol := tol) (M := M) hp i2 i4 i5
      (abs_le.mpr ⟨by linarith [(abs_le.mp h1).1], by linarith [(abs_le.mp h2).2]⟩) (abs_le.mpr ⟨by linarith [(abs_le.mp h1).1], by linarith [(abs_le.mp h2).2]⟩)
    generalize (floatNum (Arith.ieee p) tol).mid lo1 ((floatNum (Arith.ieee p) tol).tau lo1 up1) = γ at *
    have hw : (up - lo) / 2 ^ (l ++ [(γ, b)]).length = (up - lo) / 2 ^ l.length / 2 := by
      rw [List.length_append, List.length_singleton, pow_succ, div_div]
    rw [abs_le] at m4
    have htest : ∀ t ∈ l ++ [(γ, b)], lo ≤ t.1 ∧ t.1 ≤ up ∧ IsFloat p t.1 := by
      intro t ht
      rcases List.mem_append.mp ht with ht | ht
      · exact i7 t ht
      · rw [List.mem_singleton.mp ht]
        exact ⟨i1.trans m1, m2.trans i3, m3⟩
    cases b <;> simp only [Bool.false_eq_true, if_false, if_true]
    · exact ⟨i1.trans m1, m2, i3, m3, i5, by rw [hw]; linarith, htest⟩
    · exact ⟨i1, m1, m2.trans i3, i4, m3, by rw [hw]; linarith, htest⟩

/-- **C117.** `bsearch` on machine numbers with `p` bits, for every oracle that decides, whatever it answers. Let `lower ≤ upper` be numbers with `p` bits. When it returns `(u, k)`, it has tested `k` numbers between `lower` and
`upper`; `u` is the last one that was accepted (or `upper`), the last one that was rejected (or `lower`) is some `lo' ≤ u`; and `u - lo' ≤ (upper - lower) / 2 ** k + 4 * 2 ** -p * max(|lower|, |upper|)`. If it has stopped before
the iteration limit, `(1 - 2 ** -p) * (u - lo') < 2 * tolerance`. -/
theorem C117_bsearch (omega : OracleBS O ℝ) {lo up tol : ℝ} (hp : 2 ≤ p) (h : lo ≤ up) (hlo : IsFloat p lo) (hup : IsFloat p up) (o : O) (maxIters : ℕ) {o' : O} {lo' u : ℝ} {k : ℕ}
    (hr : bsearch omega (floatNum (Arith.ieee p) tol) o (lo, up) maxIters = (o', lo', .ok (u, k))) :
    ∃ l, BSTrace omega (floatNum (Arith.ieee p) tol) o lo up l o' lo' u ∧ l.length = k ∧ k ≤ maxIters ∧ (∀ t ∈ l, lo ≤ t.1 ∧ t.1 ≤ up) ∧ u = lastAnswered true up l ∧ lo' = lastAnswered false lo l ∧ lo' ≤ u
      ∧ u - lo' ≤ (up - lo) / 2 ^ k + 4 * 2⁻¹ ^ p * max |lo| |up| ∧ (k < maxIters → (1 - 2⁻¹ ^ p) * (u - lo') < 2 * tol) := by
  obtain ⟨l, ht, rfl, hu, hl, -, -, hend⟩ := C32_bsearch_certified _ _ _ _ _ _ _ _ _ _ hr
  obtain ⟨i1, i2, i3, i4, i5, i6, i7⟩ := bsTrace_float hp h hlo hup (le_max_left _ _) (le_max_right _ _) ht
  refine ⟨l, ht, rfl, hend.elim (fun h => h.le) (fun h => h.1.le), fun t ht => ⟨(i7 t ht).1, (i7 t ht).2.1⟩, hu, hl, i2, i6, fun hk => ?_⟩
  rcases hend with h | ⟨-, hs⟩
  · omega
  · have h3 : (floatNum (Arith.ieee p) tol).tau lo' u < tol := by simpa [floatNum, ltReal] using hs
    linarith [(float_tau_bounds (tol := tol) hp i2).1]

/-- **C117.** A tolerance that is not below the resolution is reached: if `(1 + 2 ** -p) * ((upper - lower) / 2 ** N + 4 * 2 ** -p * max(|lower|, |upper|)) < 2 * tolerance` then there are at most `N` tests, returned or raised. -/
theorem C117_tests (omega : OracleBS O ℝ) {lo up tol : ℝ} (hp : 2 ≤ p) (h : lo ≤ up) (hlo : IsFloat p lo) (hup : IsFloat p up) {o o' : O} {l : List (ℝ × Bool)} {lo' u : ℝ} {N : ℕ}
    (hN : (1 + 2⁻¹ ^ p) * ((up - lo) / 2 ^ N + 4 * 2⁻¹ ^ p * max |lo| |up|) < 2 * tol) (ht : BSTrace omega (floatNum (Arith.ieee p) tol) o lo up l o' lo' u) : l.length ≤ N := by
  have hu0 : (0 : ℝ) ≤ 2⁻¹ ^ p := by positivity
  cases ht with
  | start => simp
  | @step l o1 o2 lo1 up1 b t a c =>
    obtain ⟨i1, i2, i3, i4, i5, i6, i7⟩ := bsTrace_float hp h hlo hup (le_max_left _ _) (le_max_right _ _) t
    rw [List.length_append, List.length_singleton]
    by_contra hc
    have hl : N ≤ l.length := by omega
    have h1 : (up - lo) / 2 ^ l.length ≤ (up - lo) / 2 ^ N := div_le_div_of_nonneg_left (by linarith) (by positivity) (pow_le_pow_right₀ one_le_two hl)
    have h2 := (float_tau_bounds (tol := tol) hp i2).2
    have h3 : tol ≤ (floatNum (Arith.ieee p) tol).tau lo1 up1 := by simpa [floatNum, ltReal] using a
    have h4 : (1 + 2⁻¹ ^ p) * (up1 - lo1) ≤ (1 + 2⁻¹ ^ p) * ((up - lo) / 2 ^ N + 4 * 2⁻¹ ^ p * max |lo| |up|) := mul_le_mul_of_nonneg_left (by linarith) (by linarith)
    linarith

/-! ### A tolerance below the resolution -/

/-- Two numbers with `p` bits are apart. -/
theorem float_spacing (hp : 1 ≤ p) {a b : ℝ} (ha : IsFloat p a) (hb : IsFloat p b) (h0 : 0 < a) (h : a < b) : 2⁻¹ ^ p * a ≤ b - a := by
  have h2 : (2 : ℝ) ≠ 0 := two_ne_zero
  have hb0 := h0.trans h
  have ea : roundBits p a = a := (isFloat_iff hp).mp ha
  have eb : roundBits p b = b := (isFloat_iff hp).mp hb
  have he := binExp_mono (x := a) (y := b) h0.ne' (by rw [abs_of_pos h0, abs_of_pos hb0]; exact h.le)
  have hlt := lt_binExp h0.ne'
  rw [abs_of_pos h0] at hlt
  unfold roundBits at ea eb
  rw [if_neg h0.ne'] at ea
  rw [if_neg hb0.ne'] at eb
  generalize roundHalfEven (a * 2 ^ ((p : ℤ) - 1 - binExp a)) = j at *
  generalize roundHalfEven (b * 2 ^ ((p : ℤ) - 1 - binExp b)) = k at *
  obtain ⟨m, hm⟩ : ∃ m : ℕ, binExp b = binExp a + m := ⟨(binExp b - binExp a).toNat, by omega⟩
  generalize binExp b = f at *
  subst hm
  generalize binExp a = e at *
  have hw : (0 : ℝ) < 2 ^ (e + 1 - p) := zpow_pos two_pos _
  have e1 : (2 : ℝ) ^ (e + m + 1 - p) = 2 ^ m * 2 ^ (e + 1 - p) := by
    rw [← zpow_natCast, ← zpow_add₀ h2]; congr 1; ring
  have e2 : (2 : ℝ) ^ (e + 1) = 2 ^ p * 2 ^ (e + 1 - p) := by
    rw [← zpow_natCast, ← zpow_add₀ h2]; congr 1; ring
  rw [e1] at eb
  rw [e2] at hlt
  generalize (2 : ℝ) ^ (e + 1 - p) = w at *
  have h3 : b - a = ((k * 2 ^ m - j : ℤ) : ℝ) * w := by push_cast; rw [← ea, ← eb]; ring
  have h4 : (0 : ℝ) < ((k * 2 ^ m - j : ℤ) : ℝ) := by
    by_contra hc
    have := mul_le_mul_of_nonneg_right (not_lt.mp hc) hw.le
    linarith
  have h5 : (1 : ℝ) ≤ ((k * 2 ^ m - j : ℤ) : ℝ) := by exact_mod_cast (show (0 : ℤ) < _ by exact_mod_cast h4)
  have hup : (2⁻¹ : ℝ) ^ p * 2 ^ p = 1 := by rw [← mul_pow]; norm_num
  have hu0 : (0 : ℝ) < 2⁻¹ ^ p := by positivity
  calc 2⁻¹ ^ p * a ≤ 2⁻¹ ^ p * (2 ^ p * w) := mul_le_mul_of_nonneg_left hlt.le hu0.le
    _ = 1 * w := by rw [← mul_assoc, hup]
    _ ≤ _ := by rw [h3]; exact mul_le_mul_of_nonneg_right h5 hw.le

/-- **C118.** A tolerance below the resolution is never reached. For an oracle that answers `γs ≤ γ`, with `0 < lower < γs ≤ upper` and `2 * tolerance ≤ (1 - 2 ** -p) * 2 ** -p * lower`, `bsearch` makes all of its `max_iters` tests,
however many, and returns `(u, max_iters)` with `γs ≤ u`. -/
theorem C118_exhausts (omega : OracleBS O ℝ) {lo up tol γs : ℝ} (hp : 2 ≤ p) (hfl : IsFloat p lo) (hfu : IsFloat p up) (h0 : 0 < lo) (h1 : lo < γs) (h2 : γs ≤ up) (htol : 2 * tol ≤ (1 - 2⁻¹ ^ p) * 2⁻¹ ^ p * lo)
    (hω : ∀ o γ, lo ≤ γ → γ ≤ up → ∃ o', omega o γ = (o', .ok (decide (γs ≤ γ)))) (o : O) (maxIters : ℕ) :
    ∃ o' lo' u, bsearch omega (floatNum (Arith.ieee p) tol) o (lo, up) maxIters = (o', lo', .ok (u, maxIters)) ∧ lo' < γs ∧ γs ≤ u ∧ u - lo' ≤ (up - lo) / 2 ^ maxIters + 4 * 2⁻¹ ^ p * up := by
  have hlu : lo ≤ up := h1.le.trans h2
  have hM1 : |lo| ≤ up := by rw [abs_of_pos h0]; exact hlu
  have hM2 : |up| ≤ up := by rw [abs_of_pos (h0.trans_le hlu)]
  have hu0 : (0 : ℝ) < 2⁻¹ ^ p := by positivity
  have hu1 : (2⁻¹ : ℝ) ^ p ≤ 1 := pow_le_one₀ (by norm_num) (by norm_num)
  have key : ∀ {l o1 lo1 up1}, BSTrace omega (floatNum (Arith.ieee p) tol) o lo up l o1 lo1 up1 → lo1 < γs ∧ γs ≤ up1 := by
    intro l o1 lo1 up1 ht
    induction ht with
    | start => exact ⟨h1, h2⟩
    | @step l o1 o2 lo1 up1 b t a c ih =>
      obtain ⟨j1, j2, j3, j4, j5, -⟩ := bsTrace_float hp hlu hfl hfu hM1 hM2 t
      obtain ⟨m1, m2, -⟩ := float_mid (tol := tol) hp j2 j4 j5 (le_max_left _ _) (le_max_right _ _)
      generalize (floatNum (Arith.ieee p) tol).mid lo1 ((floatNum (Arith.ieee p) tol).tau lo1 up1) = γ at *
      obtain ⟨o', ho'⟩ := hω o1 γ (j1.trans m1) (m2.trans j3)
      rw [ho'] at c
      simp only [Prod.mk.injEq, Except.ok.injEq] at c
      rw [← c.2]
      by_cases hg : γs ≤ γ
      · simp only [hg, decide_true, if_true]
        exact ⟨ih.1, trivial⟩
      · simp only [hg, decide_false, Bool.false_eq_true, if_false]
        exact ⟨not_le.mp hg, ih.2⟩
  obtain ⟨l, o1, lo1, up1, ht, hend⟩ := bsearch_spec omega (floatNum (Arith.ieee p) tol) o lo up maxIters
  obtain ⟨i1, i2⟩ := key ht
  obtain ⟨j1, j2, j3, j4, j5, j6, -⟩ := bsTrace_float hp hlu hfl hfu hM1 hM2 ht
  rcases hres : bsearch omega (floatNum (Arith.ieee p) tol) o (lo, up) maxIters with ⟨o', lo', res⟩
  rw [hres] at hend
  simp only at hend
  cases hend with
  | limit h => rw [h] at j6 ⊢; exact ⟨_, _, _, rfl, i1, i2, j6⟩
  | small h hs =>
    have h3 : (floatNum (Arith.ieee p) tol).tau lo1 up1 < tol := by simpa [floatNum, ltReal] using hs
    have h4 := (float_tau_bounds (tol := tol) hp j2).1
    have h5 := float_spacing (by omega) j4 j5 (h0.trans_le j1) (i1.trans_le i2)
    have h6 : 2⁻¹ ^ p * lo ≤ up1 - lo1 := le_trans (mul_le_mul_of_nonneg_left j1 hu0.le) h5
    have h7 := mul_le_mul_of_nonneg_left h6 (by linarith : (0 : ℝ) ≤ 1 - 2⁻¹ ^ p)
    linarith
  | raises h ha =>
    obtain ⟨m1, m2, -⟩ := float_mid (tol := tol) hp j2 j4 j5 (le_max_left _ _) (le_max_right _ _)
    obtain ⟨o2, ho2⟩ := hω o1 _ (j1.trans m1) (m2.trans j3)
    rw [ho2] at ha
    simp at ha

/-! ### With the adaptor and `Ell` -/

theorem FeasTrace.invariant {S : Type*} {omega : OracleFeas O (Vec n) (Cut n)} {I : O → Prop} (hI : ∀ o x, I o → I (omega o x).1) {sp : SearchSpace S (Vec n) (Cut n) ℝ} {lt tol} {o : O} {e : S} (ho : I o) {l o' e'}
    (h : FeasTrace omega sp lt tol o e l o' e') : I o' := by
  induction h with
  | start => exact ho
  | @step _ _ s1 _ _ _ t a _ _ ih => have := hI _ (sp.xc s1) ih; rw [a] at this; exact this

theorem rounded_setXc (A : Arith) (val : InitVal n) {x : Vec n} {e : Ell n} (h : A.ellInit val x = .ok e) (y : Vec n) : e.xc = x ∧ A.ellInit val y = .ok (e.setXc y) := by
  unfold Arith.ellInit at h ⊢
  rcases hc : A.calcInit (n : ℤ) with f | c <;> rw [hc] at h
  · cases h
  · cases val <;> cases h <;> exact ⟨rfl, rfl⟩

section adaptor

variable {I : O → Prop} {J : ℝ → O → Prop} {F : ℝ → Set (Vec n)} {omega : OracleFeas O (Vec n) (Cut n)} {upd : O → ℝ → O} {c : Vec n} {R r D η X γs up : ℝ} {opts : Options ℝ}

/-- From `γs` to `up`, a run that starts with a ball of radius `R` around a point such that the ball holds the ball of radius `r` around `c`, finds a point. -/
def FindsFrom (p : ℕ) (J : ℝ → O → Prop) (omega : OracleFeas O (Vec n) (Cut n)) (c : Vec n) (R r γs up : ℝ) (opts : Options ℝ) : Prop :=
  ∀ γ, γs ≤ γ → γ ≤ up → ∀ o, J γ o → ∀ x e, ball c r ⊆ ball x R → (Arith.ieee p).ellInit (.scalar (R ^ 2)) x = .ok e →
    ∃ o' e' y k, feas omega ((Arith.ieee p).space n) ltReal o e opts = (o', e', .ok (some y, k))

/-- One test. -/
theorem assessBS_float (hω : ParamFamily I J F omega upd) (hfeas : FindsFrom p J omega c R r γs up opts) {o : O} (ho : I o) {x0 : Vec n} {e0 e : Ell n}
    (he0 : (Arith.ieee p).ellInit (.scalar (R ^ 2)) x0 = .ok e0) (he : e = e0.setXc e.xc) (hsub : ball c r ⊆ ball e.xc R) {γ : ℝ} (hγ : γ ≤ up) {o' : O} {e' : Ell n} {res : Except Fault Bool}
    (h : assessBS omega upd ((Arith.ieee p).space n) ltReal opts (o, e) γ = ((o', e'), res)) :
    I o' ∧ (γs ≤ γ → res = .ok true) ∧ (res = .ok true → e'.xc ∈ F γ ∧ e' = e0.setXc e'.xc) ∧ (res ≠ .ok true → e' = e) := by
  have hj := hω.upd o γ ho
  have hfin := hω.back _ γ (feas_inv (hω.inv γ) ((Arith.ieee p).space n) _ hj e opts)
  have hinit := (rounded_setXc _ _ he0 e.xc).2
  rw [← he] at hinit
  have hfind : γs ≤ γ → ∃ o' e' x k, feas omega ((Arith.ieee p).space n) ltReal (upd o γ) e opts = (o', e', .ok (some x, k)) := fun h1 => hfeas γ h1 hγ _ hj _ e hsub hinit
  unfold assessBS at h
  simp only at h
  rcases hf : feas omega ((Arith.ieee p).space n) ltReal (upd o γ) e opts with ⟨o1, e1, f | ⟨_ | x, k⟩⟩
  · rw [hf] at h hfin; cases h
    exact ⟨hfin, fun hγ => by obtain ⟨_, _, _, _, h1⟩ := hfind hγ; rw [hf] at h1; simp at h1, by simp, fun _ => rfl⟩
  · rw [hf] at h hfin; cases h
    exact ⟨hfin, fun hγ => by obtain ⟨_, _, _, _, h1⟩ := hfind hγ; rw [hf] at h1; simp at h1, by simp, fun _ => rfl⟩
  · rw [hf] at h hfin; cases h
    refine ⟨hfin, fun _ => rfl, fun _ => ⟨?_, ?_⟩, by simp⟩
    · obtain ⟨-, -, l, o2, ht, -, ha⟩ := C20_feas_returns_accepted _ _ _ _ _ _ _ _ _ _ hf
      exact hω.accept γ _ _ _ (ht.invariant (hω.inv γ) hj) ha
    · show e.setXc x = e0.setXc x
      rw [he]; rfl

/-- What `bsearch` over the adaptor does, up to an exception that comes from a test below `γs`: it returns `u` after `k` tests, `u ≤ γs + (up - lo) / 2 ^ k` up to the resolution; `u` is the first upper bound and nothing was found, or
the centre is in `F u`. -/
def BisectsTo (p : ℕ) (F : ℝ → Set (Vec n)) (assess : OracleBS (O × Ell n) ℝ) (o : O) (e0 : Ell n) (lo up γs tol : ℝ) (maxIters : ℕ) : Prop :=
  ∃ o' e' lo' res, bsearch assess (floatNum (Arith.ieee p) tol) (o, e0) (lo, up) maxIters = ((o', e'), lo', res) ∧
    ((∃ u k, res = .ok (u, k) ∧ k ≤ maxIters ∧ u ≤ γs + (up - lo) / 2 ^ k + 4 * 2⁻¹ ^ p * max |lo| |up| ∧ (k < maxIters → (1 - 2⁻¹ ^ p) * (u - γs) < 2 * tol) ∧ ((u = up ∧ e' = e0) ∨ e'.xc ∈ F u)) ∨
      (∃ f γ o₁ e₁, res = .error f ∧ γ < γs ∧ lo ≤ γ ∧ assess (o₁, e₁) γ = ((o', e'), .error f)))

theorem bisects_float (hp2 : 2 ≤ p) (hω : ParamFamily I J F omega upd) (hfeas : FindsFrom p J omega c R r γs up opts) (o : O) (ho : I o) {x0 : Vec n} {e0 : Ell n}
    (he0 : (Arith.ieee p).ellInit (.scalar (R ^ 2)) x0 = .ok e0) (hsub : ball c r ⊆ ball x0 R) (hd : ∀ γ ≤ up, ∀ x ∈ F γ, ball c r ⊆ ball x R) {lo tol : ℝ} (hlo : lo ≤ γs) (hlu : lo ≤ up) (hfl : IsFloat p lo) (hfu : IsFloat p up)
    (maxIters : ℕ) : BisectsTo p F (assessBS omega upd ((Arith.ieee p).space n) ltReal opts) o e0 lo up γs tol maxIters := by
  have hu1 : (2⁻¹ : ℝ) ^ p ≤ 1 := pow_le_one₀ (by norm_num) (by norm_num)
  have key : ∀ {l os lo1 up1}, BSTrace (assessBS omega upd ((Arith.ieee p).space n) ltReal opts) (floatNum (Arith.ieee p) tol) (o, e0) lo up l os lo1 up1 →
      I os.1 ∧ lo1 ≤ γs ∧ os.2 = e0.setXc os.2.xc ∧ ball c r ⊆ ball os.2.xc R ∧ ((up1 = up ∧ os.2 = e0) ∨ os.2.xc ∈ F up1) := by
    intro l os lo1 up1 ht
    induction ht with
    | start => exact ⟨ho, hlo, rfl, by rw [(rounded_setXc _ _ he0 x0).1]; exact hsub, .inl ⟨rfl, rfl⟩⟩
    | @step l o1 o2 lo1 up1 b t h1 h2 ih =>
      obtain ⟨i1, i2, i3, i4, i5⟩ := ih
      obtain ⟨p1, e1⟩ := o1
      obtain ⟨p2, e2⟩ := o2
      obtain ⟨j1, j2, j3, j4, j5, -⟩ := bsTrace_float hp2 hlu hfl hfu (le_max_left _ _) (le_max_right _ _) t
      have hM : |lo1| ≤ max |lo1| |up1| ∧ |up1| ≤ max |lo1| |up1| := ⟨le_max_left _ _, le_max_right _ _⟩
      obtain ⟨m1, m2, -⟩ := float_mid (tol := tol) hp2 j2 j4 j5 hM.1 hM.2
      generalize (floatNum (Arith.ieee p) tol).mid lo1 ((floatNum (Arith.ieee p) tol).tau lo1 up1) = γ at *
      obtain ⟨k1, k2, k3, k4⟩ := assessBS_float hω hfeas i1 he0 i3 i4 (m2.trans j3) h2
      cases b <;> simp only [Bool.false_eq_true, if_false, if_true]
      · have k5 := k4 (by simp)
        subst k5
        refine ⟨k1, ?_, i3, i4, i5⟩
        by_contra hcn
        have := k2 (not_le.mp hcn).le
        simp at this
      · obtain ⟨k5, k6⟩ := k3 rfl
        exact ⟨k1, i2, k6, hd γ (m2.trans j3) _ k5, .inr k5⟩
  obtain ⟨l, o1, lo1, up1, ht, hend⟩ := bsearch_spec (assessBS omega upd ((Arith.ieee p).space n) ltReal opts) (floatNum (Arith.ieee p) tol) (o, e0) lo up maxIters
  obtain ⟨i1, i2, i3, i4, i5⟩ := key ht
  obtain ⟨j1, j2, j3, j4, j5, j6, -⟩ := bsTrace_float hp2 hlu hfl hfu (le_max_left _ _) (le_max_right _ _) ht
  rcases hres : bsearch (assessBS omega upd ((Arith.ieee p).space n) ltReal opts) (floatNum (Arith.ieee p) tol) (o, e0) (lo, up) maxIters with ⟨⟨o', e'⟩, lo', res⟩
  rw [hres] at hend
  simp only at hend
  refine ⟨o', e', lo', res, hres, ?_⟩
  generalize hoe : (o', e') = oe at hend
  cases hend with
  | limit h =>
    subst hoe
    exact .inl ⟨_, _, rfl, h.le, by linarith, fun h2 => absurd h h2.ne, i5⟩
  | small h hs =>
    subst hoe
    have h3 : (floatNum (Arith.ieee p) tol).tau lo1 up1 < tol := by simpa [floatNum, ltReal] using hs
    have h4 := (float_tau_bounds (tol := tol) hp2 j2).1
    exact .inl ⟨_, _, rfl, h.le, by linarith, fun _ => by nlinarith, i5⟩
  | raises h ha =>
    obtain ⟨p1, e1⟩ := o1
    obtain ⟨m1, m2, -⟩ := float_mid (tol := tol) hp2 j2 j4 j5 (le_max_left _ _) (le_max_right _ _)
    refine .inr ⟨_, _, p1, e1, rfl, ?_, j1.trans m1, hoe ▸ ha⟩
    subst hoe
    obtain ⟨-, k2, -⟩ := assessBS_float hω hfeas i1 he0 i3 i4 (m2.trans j3) ha
    by_contra hcn
    have := k2 (not_lt.mp hcn)
    simp at this

/-- **C117.** `bsearch` over `BSearchAdaptor` with `Ell`, everything in floating point with `p` bits: for a parameter from `γs` on, the single cuts of the oracle keep the ball of radius `r` around `c`; this ball is within `R` of the
start, and of every point that the oracle accepts (what C81 is missing in general). Then a returned `u` after `k` tests satisfies `u ≤ γs + (upper - lower) / 2 ** k + 4 * 2 ** -p * max(|lower|, |upper|)`, and
`(1 - 2 ** -p) * (u - γs) < 2 * tolerance` if it stopped before the limit; `u` is `upper` and nothing was found, or the centre is in `F u`. An exception can only come from a test below `γs`. -/
theorem C117_accuracy (hn : 2 ≤ n) (hR : 0 < R) (hr : 0 < r) (hc : nrm c ≤ D) (hp : 24000 * ((n : ℝ) + 1) ^ 4 * (floatIters n R r + 1) * ((floatAxes n R r + D) / r) ^ 4 ≤ 2 ^ p) (hη : 0 ≤ η)
    (hω : ParamFamily I J F omega upd) (hin : ∀ γ, γs ≤ γ → γ ≤ up → InnerOracle (J γ) (F γ) c r η X omega) (hX : D + floatAxes n R r ≤ X) (htol : 8 * opts.tolerance ≤ r ^ 2 * η) (hmax : floatIters n R r < opts.maxIters)
    (o : O) (ho : I o) {x0 : Vec n} {e0 : Ell n} (he0 : (Arith.ieee p).ellInit (.scalar (R ^ 2)) x0 = .ok e0) (hsub : ball c r ⊆ ball x0 R) (hd : ∀ γ ≤ up, ∀ x ∈ F γ, ball c r ⊆ ball x R) {lo tol : ℝ} (hlo : lo ≤ γs) (hlu : lo ≤ up)
    (hfl : IsFloat p lo) (hfu : IsFloat p up) (maxIters : ℕ) : BisectsTo p F (assessBS omega upd ((Arith.ieee p).space n) ltReal opts) o e0 lo up γs tol maxIters := by
  refine bisects_float (bits_large hn hr (radius_le (by omega) hR hsub) ((nrm_nonneg c).trans hc) hp).2.2 hω (fun γ h1 h2 o hj x e hs he => ?_) o ho he0 hsub hd hlo hlu hfl hfu maxIters
  obtain ⟨o', e', y, k, h3, -⟩ := C106_feas_ieee hn hR hr hc hp hη (hin γ h1 h2) hX hj hs he opts htol hmax
  exact ⟨o', e', y, k, h3⟩

/-- **C117.** The same with pairs of parallel cuts; they need more bits. -/
theorem C117_accuracy_pairs (hn : 2 ≤ n) (hR : 0 < R) (hr : 0 < r) (hc : nrm c ≤ D) (hp : 200000 * ((n : ℝ) + 1) ^ 4 * (floatIters n R r + 1) * ((pairAxes n R r + D) / r) ^ 7 ≤ 2 ^ p) (hη : 0 ≤ η)
    (hω : ParamFamily I J F omega upd) (hin : ∀ γ, γs ≤ γ → γ ≤ up → InnerPairOracle (J γ) (F γ) c r η X omega) (hX : D + pairAxes n R r ≤ X) (htol : 8 * opts.tolerance ≤ r ^ 2 * η) (hmax : floatIters n R r < opts.maxIters)
    (o : O) (ho : I o) {x0 : Vec n} {e0 : Ell n} (he0 : (Arith.ieee p).ellInit (.scalar (R ^ 2)) x0 = .ok e0) (hsub : ball c r ⊆ ball x0 R) (hd : ∀ γ ≤ up, ∀ x ∈ F γ, ball c r ⊆ ball x R) {lo tol : ℝ} (hlo : lo ≤ γs) (hlu : lo ≤ up)
    (hfl : IsFloat p lo) (hfu : IsFloat p up) (maxIters : ℕ) : BisectsTo p F (assessBS omega upd ((Arith.ieee p).space n) ltReal opts) o e0 lo up γs tol maxIters := by
  refine bisects_float (two_le_bits (pair_bits_large hn hr (radius_le (by omega) hR hsub) ((nrm_nonneg c).trans hc) hp)) hω (fun γ h1 h2 o hj x e hs he => ?_) o ho he0 hsub hd hlo hlu hfl hfu maxIters
  obtain ⟨o', e', y, k, h3, -⟩ := C113_feas_ieee hn hR hr hc hp hη (hin γ h1 h2) hX hj hs he opts htol hmax
  exact ⟨o', e', y, k, h3⟩

end adaptor

end Ellalgo
