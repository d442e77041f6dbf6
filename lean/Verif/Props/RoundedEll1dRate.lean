import Verif.Props.SourceRoundedEll1d

/-!
# C128: `ell1d` in floating point halves its interval down to the rounding level
-/

namespace Ellalgo

open Spec

section
variable {A : Arith} {u γ : ℝ} {N : ℕ}

/-- One central or deep update halves the half-width up to `9 u M`. -/
theorem Arith.C128_update (hA : A.Accurate u γ N) (hu : 0 ≤ u) (hu1 : u ≤ 1 / 100) (e : Ell1d) {M : ℝ} (hM : |e.xc| + |e.rd| ≤ M) {g b : ℝ} (hg : g ≠ 0) {c : Bool} (hb : c = true ∨ 0 ≤ b) {e' : Ell1d} {s : CutStatus}
    (h : A.ell1dUpdate e (g, b) c = (e', .ok s)) (hs : s ≠ .noSoln) : s = .success ∧ e'.rd ≤ e.rd / 2 + 9 * (u * M) := by
  have hsucc : s = .success := by
    simp only [Arith.ell1dUpdate, Arith.pdiv, if_neg hg] at h
    by_cases h1 : c = true ∨ b = 0
    · simp only [if_pos h1, Prod.mk.injEq, Except.ok.injEq] at h
      exact h.2.symm
    rw [if_neg h1] at h
    by_cases h2 : b > |A.mul e.rd g|
    · simp only [if_pos h2, Prod.mk.injEq, Except.ok.injEq] at h
      exact absurd h.2.symm hs
    rw [if_neg h2] at h
    by_cases h3 : b < -|A.mul e.rd g|
    · rcases hb with hb | hb
      · exact absurd (.inl hb) h1
      · have := abs_nonneg (A.mul e.rd g)
        linarith
    · simp only [if_neg h3, Prod.mk.injEq, Except.ok.injEq] at h
      exact h.2.symm
  subst hsucc
  refine ⟨rfl, ?_⟩
  obtain ⟨-, h2, h3⟩ := Arith.ell1d_ends hA hu hu1 e hM hg h
  have hβ : 0 ≤ (if c then 0 else b) := by
    rcases hb with hb | hb
    · simp [hb]
    · split_ifs <;> simp [hb]
  generalize (if c then 0 else b) = β at *
  rcases lt_or_gt_of_ne hg with h | h
  · obtain ⟨a1, a2⟩ := h3 h
    have a1' := abs_le.mp a1
    have a2' := abs_le.mp a2
    have := div_nonpos_of_nonneg_of_nonpos hβ h.le
    linarith
  · obtain ⟨a1, a2⟩ := h2 h
    have a1' := abs_le.mp a1
    have a2' := abs_le.mp a2
    have := div_nonneg hβ h.le
    linarith

/-- **C128.** After `k` updates all of which were central or had `beta ≥ 0`, none of which answered `NoSoln`: with `M = B (1 + 10 u)^(k + 1)`, the half-width is at most `M / 2^k + 18 u M`. -/
theorem Arith.C128_rate (hA : A.Accurate u γ N) (hu : 0 ≤ u) (hu1 : u ≤ 1 / 100) {l r B : ℝ} (hl : |l| ≤ B) (hr : |r| ≤ B) {hist : List (ℝ × (ℝ × ℝ) × Bool)} {e : Ell1d}
    (h : A.Ell1dRun (A.ell1dInit l r) hist e) (hg : ∀ c ∈ hist, c.2.1.1 ≠ 0) (hb : ∀ c ∈ hist, c.2.2 = true ∨ 0 ≤ c.2.1.2) :
    e.rd ≤ B * (1 + 10 * u) ^ (hist.length + 1) * (1 / 2 ^ hist.length + 18 * u) := by
  have hB : 0 ≤ B := (abs_nonneg _).trans hl
  induction h with
  | start =>
    obtain ⟨h1, -⟩ := Arith.Ell1dRun.facts hA hu hu1 hl hr (hist := []) .start (by simp)
    have h0 := abs_nonneg (A.ell1dInit l r).xc
    have h2 := le_abs_self (A.ell1dInit l r).rd
    have h3 : 0 ≤ B * (1 + 10 * u) ^ (([] : List (ℝ × (ℝ × ℝ) × Bool)).length + 1) * (18 * u) := mul_nonneg (mul_nonneg hB (pow_nonneg (by linarith) _)) (by linarith)
    simp only [List.length_nil, pow_zero, div_one, mul_add, mul_one] at *
    linarith
  | @step hist e1 e2 cut c s hrun h2 h3 ih =>
    have hg' : ∀ c ∈ hist, c.2.1.1 ≠ 0 := fun c hc => hg c (List.mem_append_left _ hc)
    have i1 := ih hg' fun c hc => hb c (List.mem_append_left _ hc)
    obtain ⟨f1, -⟩ := hrun.facts hA hu hu1 hl hr hg'
    obtain ⟨g, b⟩ := cut
    obtain ⟨-, k1⟩ := Arith.C128_update hA hu hu1 e1 f1 (hg (e1.xc, (g, b), c) (by simp)) (hb (e1.xc, (g, b), c) (by simp)) h2 h3
    simp only [List.length_append, List.length_cons, List.length_nil, zero_add]
    have hM : 0 ≤ B * (1 + 10 * u) ^ (hist.length + 1) := mul_nonneg hB (pow_nonneg (by linarith) _)
    have hs : B * (1 + 10 * u) ^ (hist.length + 1 + 1) = B * (1 + 10 * u) ^ (hist.length + 1) * (1 + 10 * u) := by ring
    have hh : (1 : ℝ) / 2 ^ (hist.length + 1) = 1 / 2 ^ hist.length / 2 := by rw [pow_succ]; field_simp
    have hp : (0 : ℝ) ≤ 1 / 2 ^ hist.length := by positivity
    rw [hs, hh]
    generalize B * (1 + 10 * u) ^ (hist.length + 1) = X at *
    generalize (1 : ℝ) / 2 ^ hist.length = y at *
    have h4 : 0 ≤ X * u * (y / 2 + 18 * u) := mul_nonneg (mul_nonneg hM hu) (by linarith)
    nlinarith

end

namespace Py

variable {W : Type} {ext : ℕ → String → List Val → M W Val} {fuel : ℕ} {st : St W}

/-- **C128, from the text, with `p` bits.** `ell = ell1d((l, r))` with floats in `[-B, B]`, then `k` calls of `update` with nonzero gradients, all central or with `beta ≥ 0`, none of which answered `NoSoln`, in
arithmetic with `p ≥ 7` bits and `20 (k + 1) ≤ 2 ^ p`: then `ell._rd ≤ 2 B / 2^k + 36 B / 2^p`, and `ell.xc()` is within `2 B / 2^k + (20 k + 56) B / 2^p` of every point of `[l, r]` that all cuts keep. -/
theorem C128_bits {p : ℕ} (hp : 7 ≤ p) {v : Val} {l r B : ℝ} (hv : IsFloatPair v l r) (hl : |l| ≤ B) (hr : |r| ≤ B) :
    ∃ o st0, call (f1mach (Arith.ieee p) ext) (fuel + 1) (.glob "ell1d") [v] st = .ok (.ref o) st0 ∧
      ∀ hist st1, Float1dRun (Arith.ieee p) ext fuel o st0 hist st1 → 20 * ((hist.length : ℝ) + 1) ≤ 2 ^ p → (∀ c ∈ hist, c.2.2 = true ∨ 0 ≤ c.2.1.2) →
        ∃ attrs rd xc, st1.heap o = some (.inst "ell1d" attrs) ∧ attrs "_rd" = some (.num rd) ∧ rd ≤ 2 * B / 2 ^ hist.length + 36 * B / 2 ^ p ∧
          call (f1mach (Arith.ieee p) ext) (fuel + 2) (.meth (.ref o) "xc") [] st1 = .ok (.num xc) st1 ∧
          ∀ x, l ≤ x → x ≤ r → KeptBy hist x → |x - xc| ≤ 2 * B / 2 ^ hist.length + (20 * hist.length + 56) * B / 2 ^ p := by
  have hu : (0 : ℝ) ≤ 2⁻¹ ^ p := by positivity
  have hu1 : (2⁻¹ : ℝ) ^ p ≤ 1 / 100 :=
    (pow_le_pow_of_le_one (by norm_num) (by norm_num) hp).trans (by norm_num)
  have hB : 0 ≤ B := (abs_nonneg _).trans hl
  have h2 := ieee_two (p := p) (by omega)
  obtain ⟨st0, k1, k2, -⟩ := call_f1 (ext := ext) (fuel := fuel) (st := st) h2 hv
  refine ⟨st.next, st0, k1, fun hist st1 hrun hk hb => ?_⟩
  obtain ⟨e, r1, r2, -, hg⟩ := hrun.model h2 k2
  obtain ⟨m1, -⟩ := Arith.C127_history (Arith.ieee_accurate p 0) hu hu1 hl hr r1 hg
  have m2 := Arith.C128_rate (Arith.ieee_accurate p 0) hu hu1 hl hr r1 hg hb
  have hxc := call_f1_xc (A := Arith.ieee p) (ext := ext) (fuel := fuel) r2
  obtain ⟨-, attrs, a1, a2, a3⟩ := r2
  have hpos : (0 : ℝ) < 2 ^ p := by positivity
  have hle : 20 * ((hist.length : ℝ) + 1) * 2⁻¹ ^ p ≤ 1 := by rw [inv_pow, ← div_eq_mul_inv, div_le_one hpos]; exact hk
  have hd := ell1d_drift_le hu hB (k := hist.length) hle
  have hd1 := ell1d_drift_le hu zero_le_one (k := hist.length) hle
  have hM : (1 + 10 * (2⁻¹ : ℝ) ^ p) ^ (hist.length + 1) ≤ 2 := by
    simp only [drift] at hd1
    linarith
  have hrd : e.rd ≤ 2 * B / 2 ^ hist.length + 36 * B / 2 ^ p := by
    have hq : (0 : ℝ) ≤ 1 / 2 ^ hist.length + 18 * 2⁻¹ ^ p := by positivity
    have := mul_le_mul_of_nonneg_right (mul_le_mul_of_nonneg_left hM hB) hq
    refine (m2.trans this).trans (le_of_eq ?_)
    rw [inv_pow]; ring
  refine ⟨attrs, e.rd, e.xc, a1, a2, hrd, hxc, fun x hx1 hx2 hkx => ?_⟩
  obtain ⟨c1, c2⟩ := m1 x hx1 hx2 hkx
  have he : 20 * ((hist.length : ℝ) + 1) * 2⁻¹ ^ p * B = (20 * hist.length + 20) * B / 2 ^ p := by rw [inv_pow]; ring
  have he2 : (20 * (hist.length : ℝ) + 56) * B / 2 ^ p = (20 * hist.length + 20) * B / 2 ^ p + 36 * B / 2 ^ p := by ring
  rw [he] at hd
  rw [he2]
  exact abs_le.mpr ⟨by linarith, by linarith⟩

/-- The hypotheses are met: doubles, `ell1d((0.0, 1.0))`, and one call of `update` with `beta = 0`. -/
example (st : St Unit) : ∃ o st0, call (f1mach (Arith.ieee 53) fun _ _ _ => M.stuck) 1 (.glob "ell1d") [.tuple [.num 0, .num 1]] st = .ok (.ref o) st0 ∧
    ∃ st1 x, Float1dRun (Arith.ieee 53) (fun _ _ _ => M.stuck) 0 o st0 [(x, (-1, 0), true)] st1 ∧ ∀ c ∈ [(x, ((-1 : ℝ), (0 : ℝ)), true)], c.2.2 = true ∨ 0 ≤ c.2.1.2 := by
  have h2 := ieee_two (p := 53) (by norm_num)
  obtain ⟨st0, k1, k2, k3⟩ := call_f1 (ext := fun _ _ _ => (M.stuck : M Unit Val)) (fuel := 0) (st := st) h2 (v := .tuple [.num 0, .num 1]) (.inl rfl)
  refine ⟨_, st0, k1, ?_⟩
  obtain ⟨s, u1, -⟩ := call_f1_update (ext := fun _ _ _ => (M.stuck : M Unit Val)) (fuel := 0) h2 k2 (v := .tuple [.num (-1), .num 0]) (by norm_num) (.inl rfl) (vs := [.bool true]) (c := true) (.inl rfl)
  have hu : ((Arith.ieee 53).ell1dUpdate ((Arith.ieee 53).ell1dInit 0 1) (-1, 0) true).2 = .ok .success := by simp [Arith.ell1dUpdate]
  rw [hu] at u1
  exact ⟨s, _, .step (hist := []) .start (call_f1_xc k2) (.inl rfl) (by norm_num) (.inl rfl) u1 (by simp [statusVal]), by simp⟩

end Py

end Ellalgo
