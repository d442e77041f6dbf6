import Verif.Props.Loops
import Verif.Model.EllSpace
import Mathlib.Tactic.Linarith
import Mathlib.Tactic.FieldSimp
import Mathlib.Tactic.Ring
import Mathlib.Tactic.Positivity
import Mathlib.Algebra.Order.Field.Basic
import Mathlib.Algebra.Order.Floor.Ring
import Mathlib.Data.Rat.Floor

/-!
# C32 - C36: `bsearch` and `BSearchAdaptor`
-/

namespace Ellalgo

open CuttingPlane

variable {O S X C G T D : Type*}

section Generic

variable {omega : OracleBS O G} {num : BSNum G D}

/-- Why a run of `bsearch` ends. -/
inductive BSEnd (omega : OracleBS O G) (num : BSNum G D) (maxIters k : ℕ) (o1 : O) (lo1 up1 : G) :
    O → G → Except Fault (G × ℕ) → Prop
  | limit : k = maxIters → BSEnd omega num maxIters k o1 lo1 up1 o1 lo1 (.ok (up1, k))
  | small : k < maxIters → num.small (num.tau lo1 up1) = true →
      BSEnd omega num maxIters k o1 lo1 up1 o1 lo1 (.ok (up1, k))
  | raises {o2 f} : k < maxIters → omega o1 (num.mid lo1 (num.tau lo1 up1)) = (o2, .error f) →
      BSEnd omega num maxIters k o1 lo1 up1 o2 lo1 (.error f)

theorem bsearchLoop_spec (maxIters : ℕ) {o : O} {lo up : G} :
    ∀ (fuel : ℕ) {l : List (G × Bool)} {o1 : O} {lo1 up1 : G}, BSTrace omega num o lo up l o1 lo1 up1 →
      l.length + fuel = maxIters →
      ∃ l' o2 lo2 up2, BSTrace omega num o lo up l' o2 lo2 up2 ∧
        BSEnd omega num maxIters l'.length o2 lo2 up2 (bsearchLoop omega num fuel l.length o1 lo1 up1).1
          (bsearchLoop omega num fuel l.length o1 lo1 up1).2.1
          (bsearchLoop omega num fuel l.length o1 lo1 up1).2.2 := by
  intro fuel
  induction fuel with
  | zero => intro l o1 lo1 up1 h hl; exact ⟨l, o1, lo1, up1, h, .limit (by simpa using hl)⟩
  | succ fuel ih =>
    intro l o1 lo1 up1 h hl
    have hlt : l.length < maxIters := by omega
    unfold bsearchLoop
    simp only
    rcases hs : num.small (num.tau lo1 up1) with _ | _
    · simp only [Bool.false_eq_true, if_false]
      rcases h1 : omega o1 (num.mid lo1 (num.tau lo1 up1)) with ⟨o2, f | b⟩
      · exact ⟨l, o1, lo1, up1, h, .raises hlt h1⟩
      · have := ih (h.step hs h1) (by simp; omega)
        cases b <;> simpa using this
    · exact ⟨l, o1, lo1, up1, h, .small hlt hs⟩

theorem bsearch_spec (omega : OracleBS O G) (num : BSNum G D) (o : O) (lo up : G) (maxIters : ℕ) :
    ∃ l o1 lo1 up1, BSTrace omega num o lo up l o1 lo1 up1 ∧
      BSEnd omega num maxIters l.length o1 lo1 up1 (bsearch omega num o (lo, up) maxIters).1
        (bsearch omega num o (lo, up) maxIters).2.1 (bsearch omega num o (lo, up) maxIters).2.2 :=
  bsearchLoop_spec maxIters maxIters .start (by simp)

/-- The value of the last test answered `b`, or `d` if there is none. -/
def lastAnswered (b : Bool) (d : G) (l : List (G × Bool)) : G :=
  (((l.filter fun p => p.2 == b).getLast?).map Prod.fst).getD d

theorem lastAnswered_snoc (b : Bool) (d : G) (l : List (G × Bool)) (p : G × Bool) :
    lastAnswered b d (l ++ [p]) = if p.2 = b then p.1 else lastAnswered b d l := by
  unfold lastAnswered
  rw [List.filter_append]
  by_cases h : p.2 = b <;> simp [h]

theorem lastAnswered_eq_or_mem (b : Bool) (d : G) (l : List (G × Bool)) :
    lastAnswered b d l = d ∨ (lastAnswered b d l, b) ∈ l := by
  unfold lastAnswered
  rcases h : (l.filter fun p => p.2 == b).getLast? with _ | p
  · left; simp [h]
  · right
    have hm := List.mem_filter.mp (List.mem_of_getLast? h)
    have h2 : p.2 = b := by simpa using hm.2
    simp only [h, Option.map_some, Option.getD_some]
    rw [← h2]; exact hm.1

theorem BSTrace.bracket {o : O} {lo up : G} {l : List (G × Bool)} {o1 : O} {lo1 up1 : G}
    (h : BSTrace omega num o lo up l o1 lo1 up1) :
    up1 = lastAnswered true up l ∧ lo1 = lastAnswered false lo l := by
  induction h with
  | start => exact ⟨rfl, rfl⟩
  | @step l o1 o2 lo1 up1 b t h1 h2 ih =>
    rw [lastAnswered_snoc, lastAnswered_snoc]
    cases b <;> simp [ih.1, ih.2]

/-- **C32 (any number type, any oracle).** A run of `bsearch` that returns `(u, k)` tested exactly `k` values; `u` is the last value
answered `True` (the initial upper bound if none was), the final lower bound is the last value answered `False`
(the initial lower bound if none was); it stopped at the iteration limit or because the half-width is below the tolerance. -/
theorem C32_bsearch_certified (omega : OracleBS O G) (num : BSNum G D) (o : O) (lo up : G)
    (maxIters : ℕ) (o' : O) (lo' u : G) (k : ℕ)
    (h : bsearch omega num o (lo, up) maxIters = (o', lo', .ok (u, k))) :
    ∃ l, BSTrace omega num o lo up l o' lo' u ∧ l.length = k ∧
      u = lastAnswered true up l ∧ lo' = lastAnswered false lo l ∧
      (u = up ∨ (u, true) ∈ l) ∧ (lo' = lo ∨ (lo', false) ∈ l) ∧
      (k = maxIters ∨ (k < maxIters ∧ num.small (num.tau lo' u) = true)) := by
  obtain ⟨l, o1, lo1, up1, ht, he⟩ := bsearch_spec omega num o lo up maxIters
  rw [h] at he
  simp only at he
  have hb := ht.bracket
  have hu := lastAnswered_eq_or_mem true up l
  have hl := lastAnswered_eq_or_mem false lo l
  rw [← hb.1] at hu
  rw [← hb.2] at hl
  cases he with
  | limit hk => exact ⟨l, ht, rfl, hb.1, hb.2, hu, hl, .inl hk⟩
  | small hk hs => exact ⟨l, ht, rfl, hb.1, hb.2, hu, hl, .inr ⟨hk, hs⟩⟩

/-- Bracketing holds for any arithmetic whose midpoints stay between the bounds. -/
theorem BSTrace.ordered [Preorder G] {o : O} {lo up : G} (hlu : lo ≤ up)
    (hmid : ∀ l u, l ≤ u → l ≤ num.mid l (num.tau l u) ∧ num.mid l (num.tau l u) ≤ u)
    {l : List (G × Bool)} {o1 : O} {lo1 up1 : G} (h : BSTrace omega num o lo up l o1 lo1 up1) :
    lo ≤ lo1 ∧ lo1 ≤ up1 ∧ up1 ≤ up ∧ ∀ p ∈ l, lo ≤ p.1 ∧ p.1 ≤ up := by
  induction h with
  | start => exact ⟨le_rfl, hlu, le_rfl, by simp⟩
  | @step l o1 o2 lo1 up1 b t h1 h2 ih =>
    obtain ⟨i1, i2, i3, i4⟩ := ih
    obtain ⟨m1, m2⟩ := hmid lo1 up1 i2
    have hall : ∀ p ∈ l ++ [(num.mid lo1 (num.tau lo1 up1), b)], lo ≤ p.1 ∧ p.1 ≤ up := by
      intro p hp
      rw [List.mem_append, List.mem_singleton] at hp
      rcases hp with hp | rfl
      · exact i4 p hp
      · exact ⟨i1.trans m1, m2.trans i3⟩
    cases b
    · exact ⟨i1.trans m1, m2, i3, hall⟩
    · exact ⟨i1, m1, m2.trans i3, hall⟩

end Generic

/-! ### Exact arithmetic -/

section Exact

variable {K : Type*} [Field K] [LinearOrder K] [IsStrictOrderedRing K] {omega : OracleBS O K} {tol : K}

theorem exact_mid (l u : K) (h : l ≤ u) :
    l ≤ (BSNum.exact K tol).mid l ((BSNum.exact K tol).tau l u) ∧
      (BSNum.exact K tol).mid l ((BSNum.exact K tol).tau l u) ≤ u := by
  simp only [BSNum.exact]; constructor <;> linarith

/-- **C32 (exact arithmetic).** Every tested value lies in the initial interval and the bracket stays ordered. -/
theorem C32_bsearch_ordered (omega : OracleBS O K) (o : O) (lo up : K) (hlu : lo ≤ up) (tol : K)
    (maxIters : ℕ) (o' : O) (lo' u : K) (k : ℕ)
    (h : bsearch omega (BSNum.exact K tol) o (lo, up) maxIters = (o', lo', .ok (u, k))) :
    lo ≤ lo' ∧ lo' ≤ u ∧ u ≤ up ∧
    ∃ l, BSTrace omega (BSNum.exact K tol) o lo up l o' lo' u ∧ l.length = k ∧ ∀ p ∈ l, lo ≤ p.1 ∧ p.1 ≤ up := by
  obtain ⟨l, ht, hk, -⟩ := C32_bsearch_certified _ _ _ _ _ _ _ _ _ _ h
  obtain ⟨a, b, c, d⟩ := ht.ordered hlu exact_mid
  exact ⟨a, b, c, l, ht, hk, d⟩

theorem BSTrace.width {o : O} {lo up : K} {l : List (K × Bool)} {o1 : O} {lo1 up1 : K}
    (h : BSTrace omega (BSNum.exact K tol) o lo up l o1 lo1 up1) :
    up1 - lo1 = (up - lo) / 2 ^ l.length ∧ ∀ j < l.length, tol ≤ (up - lo) / 2 ^ (j + 1) := by
  induction h with
  | start => simp
  | @step l o1 o2 lo1 up1 b t h1 h2 ih =>
    obtain ⟨i1, i2⟩ := ih
    have hw : (up1 - lo1) / 2 = (up - lo) / 2 ^ (l.length + 1) := by rw [i1, pow_succ, div_div]
    refine ⟨?_, ?_⟩
    · rw [List.length_append, List.length_singleton, ← hw]
      cases b <;> simp only [BSNum.exact, Bool.false_eq_true, if_false, if_true] <;> ring
    · intro j hj
      rw [List.length_append, List.length_singleton] at hj
      rcases Nat.lt_succ_iff_lt_or_eq.mp hj with hj | rfl
      · exact i2 j hj
      · rw [← hw]; simpa [BSNum.exact] using h1

/-- **C33.** Exact arithmetic, an oracle with threshold `t` (it never raises, answers `False` below `t` and `True` above `t`; at `t` itself
anything), `lower ≤ t ≤ upper`. Then `bsearch` returns, with `lower' ≤ t ≤ u` and `u - lower' = (upper-lower)/2^k`; unless the limit
was hit, `u - t < 2·tolerance`; and `k` is the least number with `(upper-lower)/2^(k+1) < tolerance`, or `max_iters` if that is smaller. -/
theorem C33_bsearch_accuracy (omega : OracleBS O K) (o : O) (lo up t tol : K) (maxIters : ℕ)
    (hlo : lo ≤ t) (hup : t ≤ up)
    (hor : ∀ o γ, ∃ o' b, omega o γ = (o', .ok b) ∧ (γ < t → b = false) ∧ (t < γ → b = true)) :
    ∃ o' lo' u k, bsearch omega (BSNum.exact K tol) o (lo, up) maxIters = (o', lo', .ok (u, k)) ∧
      lo' ≤ t ∧ t ≤ u ∧ u - lo' = (up - lo) / 2 ^ k ∧ k ≤ maxIters ∧
      (∀ j < k, tol ≤ (up - lo) / 2 ^ (j + 1)) ∧
      (k < maxIters → (up - lo) / 2 ^ (k + 1) < tol ∧ u - t < 2 * tol) := by
  obtain ⟨l, o1, lo1, up1, ht, he⟩ := bsearch_spec omega (BSNum.exact K tol) o lo up maxIters
  have hthr : ∀ {l o1 lo1 up1}, BSTrace omega (BSNum.exact K tol) o lo up l o1 lo1 up1 → lo1 ≤ t ∧ t ≤ up1 := by
    intro l o1 lo1 up1 h
    induction h with
    | start => exact ⟨hlo, hup⟩
    | @step l o1 o2 lo1 up1 b t' h1 h2 ih =>
      obtain ⟨o3, b', h3, hf, htr⟩ := hor o1 ((BSNum.exact K tol).mid lo1 ((BSNum.exact K tol).tau lo1 up1))
      rw [h2] at h3
      simp only [Prod.mk.injEq, Except.ok.injEq] at h3
      obtain ⟨-, rfl⟩ := h3
      cases b
      · simp only [Bool.false_eq_true, if_false]
        exact ⟨not_lt.mp fun hc => by simpa using htr hc, ih.2⟩
      · simp only [if_true]
        exact ⟨ih.1, not_lt.mp fun hc => by simpa using hf hc⟩
  have hb := hthr ht
  have hw := ht.width
  rcases hr : bsearch omega (BSNum.exact K tol) o (lo, up) maxIters with ⟨o', lo', res⟩
  rw [hr] at he
  simp only at he
  cases he with
  | limit hk =>
    exact ⟨_, _, _, _, rfl, hb.1, hb.2, hw.1, hk.le, hw.2, fun h => absurd hk h.ne⟩
  | small hk hs =>
    refine ⟨_, _, _, _, rfl, hb.1, hb.2, hw.1, hk.le, hw.2, fun _ => ?_⟩
    have hs' : (up1 - lo1) / 2 < tol := by simpa [BSNum.exact] using hs
    refine ⟨?_, by linarith [hb.1]⟩
    rw [pow_succ, ← div_div, ← hw.1]; exact hs'
  | raises hk hx =>
    obtain ⟨o3, b', h3, -⟩ := hor o1 ((BSNum.exact K tol).mid lo1 ((BSNum.exact K tol).tau lo1 up1))
    rw [hx] at h3; simp at h3

/-- The docstring example, `gamma > 0.5` on `(0, 1)`, meets the hypotheses (over `ℚ`), with `t = 1/2`. -/
example : (0 : ℚ) ≤ 1 / 2 ∧ (1 / 2 : ℚ) ≤ 1 ∧
    ∀ (o : Unit) (γ : ℚ), ∃ o' b, (fun (o : Unit) (γ : ℚ) => (o, (Except.ok (decide (1 / 2 < γ)) : Except Fault Bool))) o γ
      = (o', .ok b) ∧ (γ < 1 / 2 → b = false) ∧ (1 / 2 < γ → b = true) :=
  ⟨by norm_num, by norm_num, fun o γ => ⟨o, _, rfl, fun h => by simpa using h.le, fun h => by simpa using h⟩⟩

end Exact

/-! ### Integers -/

section Int

variable {omega : OracleBS O ℤ} {tol : ℚ}

theorem int_mid_cases (l u : ℤ) :
    (BSNum.int tol).mid l ((BSNum.int tol).tau l u) = if 0 ≤ l + u then (l + u) / 2 else -((-(l + u)) / 2) := by
  have hv : (l : ℚ) + ((u : ℚ) - l) / 2 = ((l + u : ℤ) : ℚ) / ((2 : ℕ) : ℚ) := by push_cast; ring
  simp only [BSNum.int]
  rw [hv]
  have hsgn : (0 ≤ ((l + u : ℤ) : ℚ) / ((2 : ℕ) : ℚ)) ↔ 0 ≤ l + u := by
    constructor
    · intro h
      have := mul_nonneg h (by norm_num : (0 : ℚ) ≤ ((2 : ℕ) : ℚ))
      rw [div_mul_cancel₀ _ (by norm_num)] at this
      exact_mod_cast this
    · intro h
      have : (0 : ℚ) ≤ ((l + u : ℤ) : ℚ) := by exact_mod_cast h
      positivity
  by_cases h : 0 ≤ l + u
  · rw [if_pos (hsgn.mpr h), if_pos h]
    exact Rat.floor_intCast_div_natCast _ _
  · rw [if_neg (fun hc => h (hsgn.mp hc)), if_neg h]
    rw [show ((l + u : ℤ) : ℚ) / ((2 : ℕ) : ℚ) = -(((-(l + u) : ℤ) : ℚ) / ((2 : ℕ) : ℚ)) by push_cast; ring,
      Int.ceil_neg, Rat.floor_intCast_div_natCast]
    rfl

theorem int_mid (l u : ℤ) (h : l ≤ u) :
    l ≤ (BSNum.int tol).mid l ((BSNum.int tol).tau l u) ∧
      (BSNum.int tol).mid l ((BSNum.int tol).tau l u) ≤ u := by
  rw [int_mid_cases]; split_ifs <;> omega

/-- **C32 (integers).** -/
theorem C32_bsearch_int_ordered (omega : OracleBS O ℤ) (o : O) (lo up : ℤ) (hlu : lo ≤ up) (tol : ℚ)
    (maxIters : ℕ) (o' : O) (lo' u : ℤ) (k : ℕ)
    (h : bsearch omega (BSNum.int tol) o (lo, up) maxIters = (o', lo', .ok (u, k))) :
    lo ≤ lo' ∧ lo' ≤ u ∧ u ≤ up ∧
    ∃ l, BSTrace omega (BSNum.int tol) o lo up l o' lo' u ∧ l.length = k ∧ ∀ p ∈ l, lo ≤ p.1 ∧ p.1 ≤ up := by
  obtain ⟨l, ht, hk, -⟩ := C32_bsearch_certified _ _ _ _ _ _ _ _ _ _ h
  obtain ⟨a, b, c, d⟩ := ht.ordered hlu int_mid
  exact ⟨a, b, c, l, ht, hk, d⟩

/-- **C34.** Integer bounds (of any sign), `lower < t ≤ upper`, an oracle that accepts exactly the values `≥ t`, tolerance at most `1/2`:
the search always runs to `max_iters` (the tolerance test cannot fire while `lower < upper`), and if `2^max_iters ≥ upper - lower` it
returns `t`, the least feasible integer. -/
theorem C34_bsearch_int (omega : OracleBS O ℤ) (o : O) (lo up t : ℤ) (tol : ℚ) (maxIters : ℕ)
    (hlo : lo < t) (hup : t ≤ up) (htol : tol ≤ 1 / 2)
    (hor : ∀ o γ, ∃ o', omega o γ = (o', .ok (decide (t ≤ γ)))) :
    ∃ o' lo' u, bsearch omega (BSNum.int tol) o (lo, up) maxIters = (o', lo', .ok (u, maxIters)) ∧
      lo' < t ∧ t ≤ u ∧ u ≤ up ∧ (up - lo ≤ 2 ^ maxIters → u = t) := by
  obtain ⟨l, o1, lo1, up1, ht, he⟩ := bsearch_spec omega (BSNum.int tol) o lo up maxIters
  have inv : ∀ {l o1 lo1 up1}, BSTrace omega (BSNum.int tol) o lo up l o1 lo1 up1 →
      lo1 < t ∧ t ≤ up1 ∧ up1 ≤ up ∧ ∀ m : ℕ, up - lo ≤ 2 ^ (l.length + m) → up1 - lo1 ≤ 2 ^ m := by
    intro l o1 lo1 up1 h
    induction h with
    | start => exact ⟨hlo, hup, le_rfl, fun m h => by simpa using h⟩
    | @step l o1 o2 lo1 up1 b t' h1 h2 ih =>
      obtain ⟨i1, i2, i3, i4⟩ := ih
      obtain ⟨o3, h3⟩ := hor o1 ((BSNum.int tol).mid lo1 ((BSNum.int tol).tau lo1 up1))
      rw [h2] at h3
      simp only [Prod.mk.injEq, Except.ok.injEq] at h3
      obtain ⟨-, rfl⟩ := h3
      have hm := int_mid (tol := tol) lo1 up1 (by omega)
      have hw : ∀ m : ℕ, up - lo ≤ 2 ^ ((l ++ [((BSNum.int tol).mid lo1 ((BSNum.int tol).tau lo1 up1),
          decide (t ≤ (BSNum.int tol).mid lo1 ((BSNum.int tol).tau lo1 up1)))]).length + m) →
          up1 - lo1 ≤ 2 * 2 ^ m := by
        intro m h
        have := i4 (m + 1) (by rw [List.length_append, List.length_singleton] at h; convert h using 2; omega)
        rw [pow_succ] at this; omega
      have hp : ∀ m : ℕ, (1 : ℤ) ≤ 2 ^ m := fun m => one_le_pow₀ (by norm_num)
      by_cases hc : t ≤ (BSNum.int tol).mid lo1 ((BSNum.int tol).tau lo1 up1)
      · simp only [hc, decide_true, if_true]
        refine ⟨i1, trivial, by omega, fun m h => ?_⟩
        have h4 := hw m (by simpa [hc] using h)
        have h5 := hp m
        rw [int_mid_cases] at hc ⊢
        split_ifs at hc ⊢ <;> omega
      · simp only [hc, decide_false, Bool.false_eq_true, if_false]
        refine ⟨not_le.mp hc, i2, i3, fun m h => ?_⟩
        have h4 := hw m (by simpa [hc] using h)
        have h5 := hp m
        rw [int_mid_cases] at hc ⊢
        split_ifs at hc ⊢ <;> omega
  obtain ⟨i1, i2, i3, i4⟩ := inv ht
  rcases hr : bsearch omega (BSNum.int tol) o (lo, up) maxIters with ⟨o', lo', res⟩
  rw [hr] at he
  simp only at he
  cases he with
  | limit hk =>
    rw [hk]
    refine ⟨_, _, _, rfl, i1, i2, by omega, fun h => ?_⟩
    have := i4 0 (by rw [hk]; simpa using h)
    rw [pow_zero] at this; omega
  | small hk hs =>
    exfalso
    have hs' : ((up1 : ℚ) - lo1) / 2 < tol := by simpa [BSNum.int] using hs
    have h1 : (lo1 : ℚ) + 1 ≤ up1 := by exact_mod_cast (by omega : lo1 + 1 ≤ up1)
    linarith
  | raises hk hx =>
    obtain ⟨o3, h3⟩ := hor o1 ((BSNum.int tol).mid lo1 ((BSNum.int tol).tau lo1 up1))
    rw [hx] at h3; simp at h3

/-- The degenerate interval is the only one on which the tolerance test fires. -/
theorem C34_bsearch_int_degenerate (omega : OracleBS O ℤ) (o : O) (a : ℤ) (tol : ℚ) (htol : 0 < tol) (m : ℕ) :
    bsearch omega (BSNum.int tol) o (a, a) m = (o, a, .ok (a, 0)) := by
  cases m with
  | zero => rfl
  | succ m => simp [bsearch, bsearchLoop, BSNum.int, htol]

/-- C34 applies to an interval with negative bounds. -/
example : (-5 : ℤ) < -2 ∧ (-2 : ℤ) ≤ 3 ∧ (1 / 4 : ℚ) ≤ 1 / 2 ∧ (3 - -5 : ℤ) ≤ 2 ^ 3 ∧
    ∀ (o : Unit) (γ : ℤ), ∃ o', (fun (o : Unit) (γ : ℤ) => (o, (Except.ok (decide (-2 ≤ γ)) : Except Fault Bool))) o γ
      = (o', .ok (decide (-2 ≤ γ))) :=
  ⟨by norm_num, by norm_num, by norm_num, by norm_num, fun o γ => ⟨o, rfl⟩⟩

end Int

/-! ### `BSearchAdaptor` -/

section Adaptor

variable {omega : OracleFeas O X C} {update : O → G → O} {sp : SearchSpace S X C T} {lt : T → T → Bool}
  {opts : Options T}

/-- `x` was accepted by the feasibility oracle for `γ`: there is a run of `cutting_plane_feas` started on the space `s` right after `update(γ)` in
which the oracle answered `None` at `x`. -/
def AcceptedFor (omega : OracleFeas O X C) (update : O → G → O) (sp : SearchSpace S X C T) (lt : T → T → Bool)
    (tol : T) (s : S) (γ : G) (x : X) : Prop :=
  ∃ o l o1 s1 o2, FeasTrace omega sp lt tol (update o γ) s l o1 s1 ∧ sp.xc s1 = x ∧ omega o1 x = (o2, .ok none)

/-- **C35.** `assess_bs(γ)`: if it answers `False` or raises, the main space is untouched; if it answers `True`, the only change is
`set_xc(x)` with a point `x` the oracle accepted for this `γ`. -/
theorem C35_assess_bs_isolates (omega : OracleFeas O X C) (update : O → G → O) (sp : SearchSpace S X C T)
    (lt : T → T → Bool) (opts : Options T) (o : O) (s : S) (γ : G) (o' : O) (s' : S) (r : Except Fault Bool)
    (h : assessBS omega update sp lt opts (o, s) γ = ((o', s'), r)) :
    (r ≠ .ok true → s' = s) ∧
    (r = .ok true → ∃ x, s' = sp.setXc s x ∧ AcceptedFor omega update sp lt opts.tolerance s γ x) := by
  unfold assessBS at h
  simp only at h
  rcases hf : feas omega sp lt (update o γ) s opts with ⟨o1, s1, f | ⟨_ | x, k⟩⟩
  · rw [hf] at h; cases h; simp
  · rw [hf] at h; cases h; simp
  · rw [hf] at h; cases h
    refine ⟨fun h => absurd rfl h, fun _ => ⟨x, rfl, ?_⟩⟩
    obtain ⟨hx, -, l, o2, ht, -, ha⟩ := C20_feas_returns_accepted _ _ _ _ _ _ _ _ _ _ hf
    exact ⟨o, l, o2, s1, _, ht, hx.symm, ha⟩

/-- For `Ell`: shape matrix, `κ`, `tsq` and the helper never change; the centre only on `True`. -/
theorem C35_assess_bs_ell {n : ℕ} (omega : OracleFeas O (Vec n) (Cut n)) (update : O → G → O)
    (lt : ℝ → ℝ → Bool) (opts : Options ℝ) (o : O) (e : Ell n) (γ : G) (o' : O) (e' : Ell n)
    (r : Except Fault Bool)
    (h : assessBS omega update (Ell.space n) lt opts (o, e) γ = ((o', e'), r)) :
    e' = { e with xc := e'.xc } ∧ (r ≠ .ok true → e' = e) ∧
    (r = .ok true → AcceptedFor omega update (Ell.space n) lt opts.tolerance e γ e'.xc) := by
  obtain ⟨h1, h2⟩ := C35_assess_bs_isolates _ _ _ _ _ _ _ _ _ _ _ h
  refine ⟨?_, h1, fun hr => ?_⟩
  · by_cases hr : r = .ok true
    · obtain ⟨x, rfl, -⟩ := h2 hr; rfl
    · rw [h1 hr]
  · obtain ⟨x, rfl, ha⟩ := h2 hr; exact ha

/-- `set_xc` sets what `xc` reads and the last call wins (true of `Ell` and `EllStable`; not of the no-op default of the
abstract class, `ell_typing.py:160-162`). -/
structure LawfulSetXc (sp : SearchSpace S X C T) : Prop where
  get_set : ∀ s x, sp.xc (sp.setXc s x) = x
  set_set : ∀ s x y, sp.setXc (sp.setXc s x) y = sp.setXc s y

theorem Ell.lawfulSetXc (n : ℕ) : LawfulSetXc (Ell.space n) := ⟨fun _ _ => rfl, fun _ _ _ => rfl⟩

theorem bsTrace_adaptor {num : BSNum G D} (hsp : LawfulSetXc sp) {o : O} {s : S} {lo up : G}
    {l : List (G × Bool)} {os : O × S} {lo1 up1 : G}
    (h : BSTrace (assessBS omega update sp lt opts) num (o, s) lo up l os lo1 up1) :
    ((∀ p ∈ l, p.2 = false) ∧ os.2 = s ∧ up1 = up) ∨
    ((up1, true) ∈ l ∧ os.2 = sp.setXc s (sp.xc os.2) ∧
      ∃ s0, (s0 = s ∨ ∃ x, s0 = sp.setXc s x) ∧
        AcceptedFor omega update sp lt opts.tolerance s0 up1 (sp.xc os.2)) := by
  generalize hos : (o, s) = os0 at h
  induction h with
  | start => left; subst hos; exact ⟨by simp, rfl, rfl⟩
  | @step l os1 os2 lo1 up1 b t h1 h2 ih =>
    obtain ⟨o1, s1⟩ := os1
    obtain ⟨o2, s2⟩ := os2
    obtain ⟨c1, c2⟩ := C35_assess_bs_isolates _ _ _ _ _ _ _ _ _ _ _ h2
    cases b
    · have hs : s2 = s1 := c1 (by simp)
      simp only [Bool.false_eq_true, if_false]
      rcases ih with ⟨i1, i2, i3⟩ | ⟨i1, i2, i3⟩
      · left
        refine ⟨?_, by rw [hs]; exact i2, i3⟩
        intro p hp
        rw [List.mem_append, List.mem_singleton] at hp
        rcases hp with hp | rfl
        · exact i1 p hp
        · rfl
      · right
        exact ⟨List.mem_append_left _ i1, by rw [hs]; exact i2, by rw [hs]; exact i3⟩
    · right
      obtain ⟨x, hx, ha⟩ := c2 rfl
      simp only [if_true]
      have hxc : sp.xc s2 = x := by rw [hx, hsp.get_set]
      have hs1 : s1 = s ∨ ∃ y, s1 = sp.setXc s y := by
        rcases ih with ⟨-, i2, -⟩ | ⟨-, i2, -⟩
        · exact .inl i2
        · exact .inr ⟨_, i2⟩
      refine ⟨by simp, ?_, s1, hs1, ?_⟩
      · simp only [hxc]
        rcases hs1 with h | ⟨y, h⟩
        · rw [hx, h]
        · rw [hx, h, hsp.set_set]
      · simp only [hxc]; exact ha

/-- **C36.** After `bsearch(BSearchAdaptor(omega, space), (lo, up))` returns `(u, k)`: either every test failed, `u` is the initial upper bound
and the main space is unchanged, or `u` was tested and accepted, the main space differs from the original only in its centre, and that
centre (`x_best`) is a point the oracle accepted for exactly `γ = u`. Any number type. -/
theorem C36_bsearch_adaptor_certified (hsp : LawfulSetXc sp) (num : BSNum G D) (o : O) (s : S)
    (lo up : G) (maxIters : ℕ) (o' : O) (s' : S) (lo' u : G) (k : ℕ)
    (h : bsearch (assessBS omega update sp lt opts) num (o, s) (lo, up) maxIters =
      ((o', s'), lo', .ok (u, k))) :
    (u = up ∧ s' = s ∧ ∃ l, BSTrace (assessBS omega update sp lt opts) num (o, s) lo up l (o', s') lo' u ∧
      ∀ p ∈ l, p.2 = false) ∨
    (s' = sp.setXc s (sp.xc s') ∧
      (∃ l, BSTrace (assessBS omega update sp lt opts) num (o, s) lo up l (o', s') lo' u ∧ (u, true) ∈ l) ∧
      ∃ s0, (s0 = s ∨ ∃ x, s0 = sp.setXc s x) ∧
        AcceptedFor omega update sp lt opts.tolerance s0 u (sp.xc s')) := by
  obtain ⟨l, ht, -⟩ := C32_bsearch_certified _ _ _ _ _ _ _ _ _ _ h
  rcases bsTrace_adaptor hsp ht with ⟨i1, i2, i3⟩ | ⟨i1, i2, i3⟩
  · exact .inl ⟨i3, i2, l, ht, i1⟩
  · exact .inr ⟨i2, ⟨l, ht, i1⟩, i3⟩

/-- A `γ`-sensitive oracle on the toy space: state `γ`, accepts points `≤ γ`. -/
def toyGamma : OracleFeas ℤ ℤ Unit := fun γ x => (γ, .ok (if x ≤ γ then none else some ()))

/-- An integer arithmetic for the example. -/
def toyNum : BSNum ℤ ℤ := ⟨fun l u => (u - l) / 2, fun t => decide (t < 1), fun l t => l + t⟩

/-- C36 applies: from centre 6, at most five iterations per test; `γ = 0` is rejected, 5, 2, 1 are accepted. -/
example : bsearch (assessBS toyGamma (fun _ γ => γ) toySpace (· < ·) ⟨5, 5⟩) toyNum (0, 6) (-10, 10) 9
    = ((1, 1), 0, .ok (1, 4)) := by
  rfl

example : LawfulSetXc toySpace := ⟨fun _ _ => rfl, fun _ _ _ => rfl⟩

end Adaptor

end Ellalgo
