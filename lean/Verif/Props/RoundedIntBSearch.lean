import Verif.Props.SourceRoundedBSearch

/-!
# C119: bisection on integers with machine numbers

With integer bounds `bsearch` computes `tau = (upper - lower) / 2` by the true division of integers, and `gamma = int(lower + tau)`; the quotient and the sum are machine numbers.
-/

namespace Ellalgo

open Spec CuttingPlane Py

variable {O : Type*} {p : ℕ}

theorem neg_pow_le (p : ℕ) : -(2 : ℤ) ^ p ≤ 0 := by
  have : (0 : ℤ) ≤ 2 ^ p := by positivity
  linarith

/-- An integer up to `2 ** p` is a number with `p` bits. -/
theorem int_float (hp : 1 ≤ p) {k : ℤ} (h1 : -2 ^ p ≤ k) (h2 : k ≤ 2 ^ p) : roundBits p (k : ℝ) = k := by
  obtain ⟨q, rfl⟩ : ∃ q, p = q + 1 := ⟨p - 1, by omega⟩
  have hq : (1 : ℝ) < 2 ^ (q + 1) := one_lt_pow₀ one_lt_two (by omega)
  have key : ∀ j : ℤ, |(j : ℝ)| = 2 ^ (q + 1) → roundBits (q + 1) (j : ℝ) = j := by
    intro j hj
    rcases abs_eq (by positivity) |>.mp hj with h | h
    · have := roundBits_exact (p := q + 1) 1 (q + 1 : ℕ) (by simpa using hq)
      rw [zpow_natCast, Int.cast_one, one_mul, ← h] at this
      exact this
    · have := roundBits_exact (p := q + 1) (-1) (q + 1 : ℕ) (by simpa using hq)
      rw [zpow_natCast, Int.cast_neg, Int.cast_one, neg_one_mul, ← h] at this
      exact this
  have h3 : |(k : ℝ)| ≤ 2 ^ (q + 1) := abs_le.mpr ⟨by exact_mod_cast h1, by exact_mod_cast h2⟩
  rcases h3.lt_or_eq with h | h
  · have := roundBits_exact (p := q + 1) k 0 h
    simpa using this
  · exact key k h

/-- Rounding stays between integers up to `2 ** p`. -/
theorem int_between (hp : 1 ≤ p) {a b : ℤ} {x : ℝ} (ha : -2 ^ p ≤ a) (hb : b ≤ 2 ^ p) (h1 : (a : ℝ) ≤ x) (h2 : x ≤ b) : (a : ℝ) ≤ roundBits p x ∧ roundBits p x ≤ b := by
  have hab : a ≤ b := by exact_mod_cast h1.trans h2
  have k1 := roundBits_mono hp h1
  have k2 := roundBits_mono hp h2
  rw [int_float hp ha (hab.trans hb)] at k1
  rw [int_float hp (ha.trans hab) hb] at k2
  exact ⟨k1, k2⟩

/-- Truncation stays between integers. -/
theorem trunc_between {a b : ℤ} {x : ℝ} (h1 : (a : ℝ) ≤ x) (h2 : x ≤ b) : a ≤ (if 0 ≤ x then ⌊x⌋ else ⌈x⌉) ∧ (if 0 ≤ x then ⌊x⌋ else ⌈x⌉) ≤ b := by
  split_ifs
  · exact ⟨Int.le_floor.mpr h1, by exact_mod_cast (Int.floor_le x).trans h2⟩
  · exact ⟨by exact_mod_cast h1.trans (Int.le_ceil x), Int.ceil_le.mpr h2⟩

/-- The half-width lies between the two integers next to the exact one. -/
theorem int_tau (hp : 2 ≤ p) {l u : ℤ} (h : l ≤ u) (hl : -2 ^ p ≤ l) (hu : u ≤ 2 ^ p) (tol : ℝ) :
    (((u - l) / 2 : ℤ) : ℝ) ≤ (intNum (Arith.ieee p) tol).tau l u ∧ (intNum (Arith.ieee p) tol).tau l u ≤ ((u - l + 1) / 2 : ℤ) := by
  have h4 : (4 : ℤ) ≤ 2 ^ p := by
    calc (4 : ℤ) = 2 ^ 2 := by norm_num
      _ ≤ 2 ^ p := pow_le_pow_right₀ one_le_two hp
  have h2 : ∀ k : ℤ, (((k / 2 : ℤ)) : ℝ) ≤ (k : ℝ) / 2 := fun k => by
    have : (2 * (k / 2) : ℤ) ≤ k := by omega
    have : (2 : ℝ) * ((k / 2 : ℤ) : ℝ) ≤ k := by exact_mod_cast this
    linarith
  have h3 : ((u - l : ℤ) : ℝ) / 2 ≤ (((u - l + 1) / 2 : ℤ) : ℝ) := by
    have : (u - l : ℤ) ≤ 2 * ((u - l + 1) / 2) := by omega
    have : ((u - l : ℤ) : ℝ) ≤ 2 * (((u - l + 1) / 2 : ℤ) : ℝ) := by exact_mod_cast this
    linarith
  exact int_between (by omega) (by omega) (by omega) (h2 _) h3

/-- The value that is tested is one of the two integers next to the mean. -/
theorem int_mid_float (hp : 2 ≤ p) {l u : ℤ} (h : l ≤ u) (hl : -2 ^ p ≤ l) (hu : u ≤ 2 ^ p) (tol : ℝ) :
    l + (u - l) / 2 ≤ (intNum (Arith.ieee p) tol).mid l ((intNum (Arith.ieee p) tol).tau l u) ∧ (intNum (Arith.ieee p) tol).mid l ((intNum (Arith.ieee p) tol).tau l u) ≤ l + (u - l + 1) / 2 := by
  obtain ⟨h1, h2⟩ := int_tau hp h hl hu tol
  generalize (intNum (Arith.ieee p) tol).tau l u = t at *
  have hr : roundBits p (l : ℝ) = l := int_float (by omega) hl (h.trans hu)
  have h3 := int_between (p := p) (by omega) (a := l + (u - l) / 2) (b := l + (u - l + 1) / 2) (x := roundBits p (l : ℝ) + t) (by omega) (by omega) (by rw [hr]; push_cast; linarith) (by rw [hr]; push_cast; linarith)
  exact trunc_between h3.1 h3.2

/-- Along a run the bounds stay ordered, inside of the first ones, and their distance is halved. -/
theorem bsTrace_int {omega : OracleBS O ℤ} {lo up : ℤ} {tol : ℝ} (hp : 2 ≤ p) (h : lo ≤ up) (hlo : -2 ^ p ≤ lo) (hup : up ≤ 2 ^ p) {o o1 : O} {l : List (ℤ × Bool)} {lo1 up1 : ℤ}
    (ht : BSTrace omega (intNum (Arith.ieee p) tol) o lo up l o1 lo1 up1) :
    lo ≤ lo1 ∧ lo1 ≤ up1 ∧ up1 ≤ up ∧ (∀ m : ℕ, up - lo ≤ 2 ^ (l.length + m) → up1 - lo1 ≤ 2 ^ m) ∧ ∀ t ∈ l, lo ≤ t.1 ∧ t.1 ≤ up := by
  induction ht with
  | start => exact ⟨le_rfl, h, le_rfl, fun m h => by simpa using h, by simp⟩
  | @step l o1 o2 lo1 up1 b t a c ih =>
    obtain ⟨i1, i2, i3, i4, i5⟩ := ih
    obtain ⟨m1, m2⟩ := int_mid_float hp i2 (hlo.trans i1) (i3.trans hup) tol
    generalize (intNum (Arith.ieee p) tol).mid lo1 ((intNum (Arith.ieee p) tol).tau lo1 up1) = γ at *
    have hw : ∀ m : ℕ, up - lo ≤ 2 ^ ((l ++ [(γ, b)]).length + m) → up1 - lo1 ≤ 2 * 2 ^ m := by
      intro m h
      have := i4 (m + 1) (by rw [List.length_append, List.length_singleton] at h; convert h using 2; omega)
      rw [pow_succ] at this; omega
    have htest : ∀ t ∈ l ++ [(γ, b)], lo ≤ t.1 ∧ t.1 ≤ up := by
      intro t ht
      rcases List.mem_append.mp ht with ht | ht
      · exact i5 t ht
      · rw [List.mem_singleton.mp ht]
        exact ⟨by dsimp only; omega, by dsimp only; omega⟩
    cases b <;> simp only [Bool.false_eq_true, if_false, if_true]
    · exact ⟨by omega, by omega, i3, fun m hm => by have := hw m hm; omega, htest⟩
    · exact ⟨i1, by omega, by omega, fun m hm => by have := hw m hm; omega, htest⟩

/-- **C119.** `bsearch` with integer bounds `-2 ** p ≤ lower ≤ upper ≤ 2 ** p` and machine numbers of `p` bits, for every oracle that decides. When it returns `(u, k)`, it has tested `k` integers between `lower` and `upper`; `u` is the
last one that was accepted (or `upper`), the last one that was rejected (or `lower`) is some `lo' ≤ u`; with `upper - lower ≤ 2 ** (k + m)` the distance is at most `2 ** m`. With a tolerance of at most 1/2 the run stops before the
iteration limit only if the bounds are equal. -/
theorem C119_bsearch (omega : OracleBS O ℤ) {lo up : ℤ} {tol : ℝ} (hp : 2 ≤ p) (h : lo ≤ up) (hlo : -2 ^ p ≤ lo) (hup : up ≤ 2 ^ p) (o : O) (maxIters : ℕ) {o' : O} {lo' u : ℤ} {k : ℕ}
    (hr : bsearch omega (intNum (Arith.ieee p) tol) o (lo, up) maxIters = (o', lo', .ok (u, k))) :
    ∃ l, BSTrace omega (intNum (Arith.ieee p) tol) o lo up l o' lo' u ∧ l.length = k ∧ k ≤ maxIters ∧ (∀ t ∈ l, lo ≤ t.1 ∧ t.1 ≤ up) ∧ u = lastAnswered true up l ∧ lo' = lastAnswered false lo l ∧ lo' ≤ u
      ∧ (∀ m : ℕ, up - lo ≤ 2 ^ (k + m) → u - lo' ≤ 2 ^ m) ∧ (tol ≤ 1 / 2 → k < maxIters → lo' = u) := by
  obtain ⟨l, ht, rfl, hu, hl, -, -, hend⟩ := C32_bsearch_certified _ _ _ _ _ _ _ _ _ _ hr
  obtain ⟨i1, i2, i3, i4, i5⟩ := bsTrace_int hp h hlo hup ht
  refine ⟨l, ht, rfl, hend.elim (fun h => h.le) (fun h => h.1.le), i5, hu, hl, i2, i4, fun htol hk => ?_⟩
  rcases hend with h | ⟨-, hs⟩
  · omega
  · by_contra hne
    have h3 : (intNum (Arith.ieee p) tol).tau lo' u < tol := by simpa [intNum, ltReal] using hs
    have h4 : (1 : ℝ) / 2 ≤ ((u - lo' : ℤ) : ℝ) / 2 := by
      have : (1 : ℤ) ≤ u - lo' := by omega
      have : (1 : ℝ) ≤ ((u - lo' : ℤ) : ℝ) := by exact_mod_cast this
      linarith
    have h5 := roundBits_mono (p := p) (by omega) h4
    rw [roundBits_half (by omega) (by simpa using int_float (p := p) (k := 1) (by omega) ((neg_pow_le p).trans zero_le_one) (one_le_pow₀ one_le_two))] at h5
    have h6 : roundBits p (((u - lo' : ℤ) : ℝ) / 2) < tol := h3
    linarith

/-- **C119.** For an oracle that accepts exactly the integers from `t` on, `-2 ** p ≤ lower < t ≤ upper ≤ 2 ** p`, and a tolerance of at most 1/2: all `max_iters` tests are made, and if `upper - lower ≤ 2 ** max_iters` then `t` is
returned. -/
theorem C119_least (omega : OracleBS O ℤ) {lo up t : ℤ} {tol : ℝ} (hp : 2 ≤ p) (hlo : -2 ^ p ≤ lo) (hup : up ≤ 2 ^ p) (h1 : lo < t) (h2 : t ≤ up) (htol : tol ≤ 1 / 2)
    (hω : ∀ o γ, lo ≤ γ → γ ≤ up → ∃ o', omega o γ = (o', .ok (decide (t ≤ γ)))) (o : O) (maxIters : ℕ) :
    ∃ o' lo' u, bsearch omega (intNum (Arith.ieee p) tol) o (lo, up) maxIters = (o', lo', .ok (u, maxIters)) ∧ lo' < t ∧ t ≤ u ∧ u ≤ up ∧ (up - lo ≤ 2 ^ maxIters → u = t) := by
  have hlu : lo ≤ up := h1.le.trans h2
  have key : ∀ {l o1 lo1 up1}, BSTrace omega (intNum (Arith.ieee p) tol) o lo up l o1 lo1 up1 → lo1 < t ∧ t ≤ up1 := by
    intro l o1 lo1 up1 ht
    induction ht with
    | start => exact ⟨h1, h2⟩
    | @step l o1 o2 lo1 up1 b t' a c ih =>
      obtain ⟨j1, j2, j3, -⟩ := bsTrace_int hp hlu hlo hup t'
      obtain ⟨m1, m2⟩ := int_mid_float hp j2 (hlo.trans j1) (j3.trans hup) tol
      generalize (intNum (Arith.ieee p) tol).mid lo1 ((intNum (Arith.ieee p) tol).tau lo1 up1) = γ at *
      obtain ⟨o', ho'⟩ := hω o1 γ (by omega) (by omega)
      rw [ho'] at c
      simp only [Prod.mk.injEq, Except.ok.injEq] at c
      rw [← c.2]
      by_cases hg : t ≤ γ
      · simp only [hg, decide_true, if_true]
        exact ⟨ih.1, trivial⟩
      · simp only [hg, decide_false, Bool.false_eq_true, if_false]
        exact ⟨not_le.mp hg, ih.2⟩
  obtain ⟨l, o1, lo1, up1, ht, hend⟩ := bsearch_spec omega (intNum (Arith.ieee p) tol) o lo up maxIters
  obtain ⟨i1, i2⟩ := key ht
  obtain ⟨j1, j2, j3, j4, -⟩ := bsTrace_int hp hlu hlo hup ht
  rcases hres : bsearch omega (intNum (Arith.ieee p) tol) o (lo, up) maxIters with ⟨o', lo', res⟩
  rw [hres] at hend
  simp only at hend
  cases hend with
  | limit h =>
    rw [h] at j4 ⊢
    refine ⟨_, _, _, rfl, i1, i2, j3, fun hm => ?_⟩
    have := j4 0 (by simpa using hm)
    rw [pow_zero] at this; omega
  | small h hs =>
    have hr : bsearch omega (intNum (Arith.ieee p) tol) o (lo, up) maxIters = (o1, lo1, .ok (up1, l.length)) := hres
    obtain ⟨-, -, -, -, -, -, -, -, -, h9⟩ := C119_bsearch omega hp hlu hlo hup o maxIters hr
    have := h9 htol h
    omega
  | raises h ha =>
    obtain ⟨m1, m2⟩ := int_mid_float hp j2 (hlo.trans j1) (j3.trans hup) tol
    obtain ⟨o2, ho2⟩ := hω o1 ((intNum (Arith.ieee p) tol).mid lo1 ((intNum (Arith.ieee p) tol).tau lo1 up1)) (by omega) (by omega)
    rw [ho2] at ha
    simp at ha

/-- `2 ** p + 1` is rounded to `2 ** p`. -/
theorem round_next (hp : 2 ≤ p) : roundBits p ((2 : ℝ) ^ p + 1) = 2 ^ p := by
  obtain ⟨q, rfl⟩ : ∃ q, p = q + 2 := ⟨p - 2, by omega⟩
  have hq : (1 : ℝ) ≤ 2 ^ q := one_le_pow₀ one_le_two
  have h0 : (2 : ℝ) ^ (q + 2) + 1 ≠ 0 := by positivity
  have hb : binExp ((2 : ℝ) ^ (q + 2) + 1) = (q + 2 : ℕ) := by
    unfold binExp
    rw [abs_of_pos (by positivity)]
    apply le_antisymm
    · have : Int.log 2 ((2 : ℝ) ^ (q + 2) + 1) < ((q + 2 : ℕ) : ℤ) + 1 := by
        rw [Int.lt_iff_add_one_le, ← Int.lt_iff_add_one_le, ← Int.lt_zpow_iff_log_lt (by norm_num) (by positivity)]
        rw [Nat.cast_ofNat, zpow_add₀ two_ne_zero, zpow_natCast, zpow_one]
        rw [pow_add]
        linarith
      omega
    · rw [← Int.zpow_le_iff_le_log (by norm_num) (by positivity), Nat.cast_ofNat, zpow_natCast]
      linarith
  unfold roundBits
  rw [if_neg h0, hb]
  have e1 : (((q + 2 : ℕ) : ℤ) - 1 - ((q + 2 : ℕ) : ℤ)) = -1 := by ring
  have e2 : (((q + 2 : ℕ) : ℤ) + 1 - ((q + 2 : ℕ) : ℤ)) = 1 := by ring
  rw [e1, e2, zpow_one, zpow_neg_one]
  have e3 : ((2 : ℝ) ^ (q + 2) + 1) * 2⁻¹ = ((2 ^ (q + 1) : ℤ) : ℝ) + 1 / 2 := by push_cast; ring
  have e4 : ⌊((2 : ℝ) ^ (q + 2) + 1) * 2⁻¹⌋ = 2 ^ (q + 1) := by
    rw [e3, Int.floor_intCast_add, show ⌊(1 / 2 : ℝ)⌋ = 0 by norm_num, add_zero]
  have e5 : roundHalfEven (((2 : ℝ) ^ (q + 2) + 1) * 2⁻¹) = 2 ^ (q + 1) := by
    unfold roundHalfEven
    rw [e4, e3, if_neg (by linarith), if_neg (by linarith), if_pos (by rw [pow_succ]; exact even_two.mul_left _)]
  rw [e5]
  push_cast
  ring

/-- **C119.** The bound on the integers cannot be raised: between `2 ** p` and `2 ** p + 2` every test is made at `2 ** p`, so an oracle that accepts the integers from `2 ** p + 1` on (but not `2 ** p`) gives `2 ** p + 2`, however many
tests are allowed. -/
theorem C119_large (omega : OracleBS O ℤ) {tol : ℝ} (hp : 2 ≤ p) (htol : tol ≤ 1) (hω : ∀ o, ∃ o', omega o (2 ^ p) = (o', .ok false)) (o : O) (maxIters : ℕ) :
    ∃ o', bsearch omega (intNum (Arith.ieee p) tol) o (2 ^ p, 2 ^ p + 2) maxIters = (o', 2 ^ p, .ok (2 ^ p + 2, maxIters)) := by
  have htau : (intNum (Arith.ieee p) tol).tau (2 ^ p) (2 ^ p + 2) = 1 := by
    show roundBits p (((2 ^ p + 2 - 2 ^ p : ℤ) : ℝ) / 2) = 1
    rw [show (((2 ^ p + 2 - 2 ^ p : ℤ) : ℝ) / 2) = ((1 : ℤ) : ℝ) by push_cast; ring, int_float (by omega) ((neg_pow_le p).trans zero_le_one) (one_le_pow₀ one_le_two), Int.cast_one]
  have hmid : (intNum (Arith.ieee p) tol).mid (2 ^ p) 1 = 2 ^ p := by
    have h1 : (Arith.ieee p).add ((Arith.ieee p).rnd ((2 ^ p : ℤ) : ℝ)) 1 = ((2 ^ p : ℤ) : ℝ) := by
      show roundBits p (roundBits p ((2 ^ p : ℤ) : ℝ) + 1) = _
      rw [int_float (by omega) ((neg_pow_le p).trans (by positivity)) le_rfl]
      push_cast
      exact round_next hp
    simp only [intNum]
    rw [h1, Int.floor_intCast, Int.ceil_intCast, ite_self]
  have key : ∀ (m k : ℕ) (o : O), ∃ o', bsearchLoop omega (intNum (Arith.ieee p) tol) m k o (2 ^ p) (2 ^ p + 2) = (o', 2 ^ p, .ok (2 ^ p + 2, k + m)) := by
    intro m
    induction m with
    | zero => intro k o; exact ⟨o, rfl⟩
    | succ m ih =>
      intro k o
      obtain ⟨o1, h1⟩ := hω o
      obtain ⟨o', h2⟩ := ih (k + 1) o1
      refine ⟨o', ?_⟩
      have hs : (intNum (Arith.ieee p) tol).small 1 = false := by simpa [intNum, ltReal] using htol
      rw [bsearchLoop]
      simp only [htau, hs, hmid, h1, h2, Bool.false_eq_true, if_false]
      rw [show k + 1 + m = k + (m + 1) by omega]
  obtain ⟨o', h⟩ := key maxIters 0 o
  rw [Nat.zero_add] at h
  exact ⟨o', h⟩

namespace Py

/-! ### From the text -/

section text

variable {W O : Type} {Q : St W → O → Prop} {vo v2 : Val} {opts2 : Options ℝ} {ext : ℕ → String → List Val → M W Val} {fuel p : ℕ} {omega : OracleBS O ℤ} (hp : 2 ≤ p)
  (hQ : BSSim (Arith.ieee p) ext (fuel + 1) vo v2 omega opts2 Q Val.int) {st : St W} {o : O} (ho : Q st o)
include hp hQ ho

/-- **C119.** `bsearch(omega, (lower, upper), options)` of the text with integer bounds, for every object with a method `assess_bs`. -/
theorem C119_text {lo up : ℤ} (h : lo ≤ up) (hlo : -2 ^ p ≤ lo) (hup : up ≤ 2 ^ p) :
    (∃ s u k lo' o' l, call (mach (Arith.ieee p) ext) (fuel + 2) (.glob "bsearch") [vo, .tuple [.int lo, .int up], v2] st = .ok (.tuple [.int u, .int (k : ℕ)]) s ∧ Q s o'
      ∧ BSTrace omega (intNum (Arith.ieee p) opts2.tolerance) o lo up l o' lo' u ∧ l.length = k ∧ k ≤ opts2.maxIters ∧ (∀ t ∈ l, lo ≤ t.1 ∧ t.1 ≤ up) ∧ u = lastAnswered true up l ∧ lo' = lastAnswered false lo l ∧ lo' ≤ u
      ∧ (∀ m : ℕ, up - lo ≤ 2 ^ (k + m) → u - lo' ≤ 2 ^ m) ∧ (opts2.tolerance ≤ 1 / 2 → k < opts2.maxIters → lo' = u))
    ∨ ∃ s f, call (mach (Arith.ieee p) ext) (fuel + 2) (.glob "bsearch") [vo, .tuple [.int lo, .int up], v2] st = .exc (excOf f) s := by
  have hh := call_bsearch (fuel := fuel) (intNum_sim _ ext fuel opts2.tolerance) hQ ho (l := lo) (u := up) (vl := .int lo) rfl
  rcases hr : bsearch omega (intNum (Arith.ieee p) opts2.tolerance) o (lo, up) opts2.maxIters with ⟨o', lo', f | ⟨u, k⟩⟩ <;> rw [hr] at hh <;> simp only [BSOutcome] at hh
  · obtain ⟨s, h1, -⟩ := hh
    exact .inr ⟨s, f, h1⟩
  · obtain ⟨s, h1, h2⟩ := hh
    obtain ⟨l, h3⟩ := C119_bsearch omega hp h hlo hup o opts2.maxIters hr
    exact .inl ⟨s, u, k, lo', o', l, h1, h2, h3⟩

/-- **C119.** From the text: the least integer that is accepted is found, if the bounds are at most `2 ** p` in absolute value and there are enough tests. -/
theorem C119_least_text {lo up t : ℤ} (hlo : -2 ^ p ≤ lo) (hup : up ≤ 2 ^ p) (h1 : lo < t) (h2 : t ≤ up) (htol : opts2.tolerance ≤ 1 / 2) (hω : ∀ o γ, lo ≤ γ → γ ≤ up → ∃ o', omega o γ = (o', .ok (decide (t ≤ γ))))
    (hm : up - lo ≤ 2 ^ opts2.maxIters) :
    ∃ s, call (mach (Arith.ieee p) ext) (fuel + 2) (.glob "bsearch") [vo, .tuple [.int lo, .int up], v2] st = .ok (.tuple [.int t, .int (opts2.maxIters : ℕ)]) s := by
  have hh := call_bsearch (fuel := fuel) (intNum_sim _ ext fuel opts2.tolerance) hQ ho (l := lo) (u := up) (vl := .int lo) rfl
  obtain ⟨o', lo', u, hr, -, -, -, h3⟩ := C119_least omega hp hlo hup h1 h2 htol hω o opts2.maxIters
  rw [hr, h3 hm] at hh
  simp only [BSOutcome] at hh
  obtain ⟨s, h4, -⟩ := hh
  exact ⟨s, h4⟩

/-- **C119.** From the text: for larger integers it is not found. -/
theorem C119_large_text (htol : opts2.tolerance ≤ 1) (hω : ∀ o, ∃ o', omega o (2 ^ p) = (o', .ok false)) :
    ∃ s, call (mach (Arith.ieee p) ext) (fuel + 2) (.glob "bsearch") [vo, .tuple [.int (2 ^ p), .int (2 ^ p + 2)], v2] st = .ok (.tuple [.int (2 ^ p + 2), .int (opts2.maxIters : ℕ)]) s := by
  have hh := call_bsearch (fuel := fuel) (intNum_sim _ ext fuel opts2.tolerance) hQ ho (l := 2 ^ p) (u := 2 ^ p + 2) (vl := .int (2 ^ p)) rfl
  obtain ⟨o', hr⟩ := C119_large omega hp htol hω o opts2.maxIters
  rw [hr] at hh
  simp only [BSOutcome] at hh
  obtain ⟨s, h4, -⟩ := hh
  exact ⟨s, h4⟩

end text

/-- An object of the user whose `assess_bs(gamma)` answers `t <= gamma`, for integers. -/
def intExt (t : ℤ) : ℕ → String → List Val → M Unit Val := fun _ m args =>
  match m, args with
  | "assess_bs", [.int g] => fun st => .ok (.bool (decide (t ≤ g))) st
  | _, _ => M.stuck

theorem int_sim (t : ℤ) (p fuel : ℕ) :
    BSSim (Arith.ieee p) (intExt t) (fuel + 1) (.ref 0) (.ref 2) (fun _ γ => ((), .ok (decide (t ≤ γ)))) ⟨2000, (Arith.ieee p).rnd (1 / 10 ^ 20)⟩ (fun st (_ : Unit) => st = exampleHeap) Val.int where
  options := by
    rintro _ _ rfl
    exact ⟨2, Env.empty, rfl, rfl, .inr ⟨rfl, rfl⟩, .inr ⟨rfl, by simp [literal]⟩⟩
  has := by
    rintro _ _ rfl
    exact user_has (o := ()) ⟨by decide, rfl, rfl⟩ _
  assess := by
    rintro _ _ g rfl
    refine ⟨.bool (decide (t ≤ g)), exampleHeap, ?_, rfl, fun st => rfl⟩
    rw [call_user (by rfl)]
    simp only [mach, intExt]

/-- The hypotheses of `C119_text`, `C119_least_text` and `C119_large_text` in doubles with the default options: `bsearch(omega, (-7, 2**53))` finds 10**15 + 1; `bsearch(omega, (2**53, 2**53 + 2))` misses 2**53 + 1. -/
example : (∃ s, call (mach (Arith.ieee 53) (intExt (10 ^ 15 + 1))) 2 (.glob "bsearch") [.ref 0, .tuple [.int (-7), .int (2 ^ 53)], .ref 2] exampleHeap = .ok (.tuple [.int (10 ^ 15 + 1), .int (2000 : ℕ)]) s)
    ∧ ∃ s, call (mach (Arith.ieee 53) (intExt (2 ^ 53 + 1))) 2 (.glob "bsearch") [.ref 0, .tuple [.int (2 ^ 53), .int (2 ^ 53 + 2)], .ref 2] exampleHeap = .ok (.tuple [.int (2 ^ 53 + 2), .int (2000 : ℕ)]) s := by
  have htol : (Arith.ieee 53).rnd (1 / 10 ^ 20) ≤ 1 / 2 := by have := default_tolerance.2; norm_num at this ⊢; linarith
  constructor
  · refine C119_least_text (p := 53) (fuel := 0) (by norm_num) (int_sim _ 53 0) (st := exampleHeap) (o := ()) rfl (by norm_num) (by norm_num) (by norm_num) (by norm_num) htol (fun o γ _ _ => ⟨(), rfl⟩) ?_
    calc (2 ^ 53 - -7 : ℤ) ≤ 2 ^ 54 := by norm_num
      _ ≤ 2 ^ 2000 := pow_le_pow_right₀ one_le_two (by norm_num)
  · exact C119_large_text (p := 53) (fuel := 0) (by norm_num) (int_sim _ 53 0) (st := exampleHeap) (o := ()) rfl (by dsimp only; linarith) (fun o => ⟨(), by norm_num⟩)

end Py

end Ellalgo
