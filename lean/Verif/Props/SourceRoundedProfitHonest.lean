import Verif.Props.RoundedProfitHonest
import Verif.Props.SourceRoundedProfit

/-! # C122: the profit oracles in floating point from the text: the values returned are honest -/

namespace Ellalgo

open Matrix Spec Spec.ProfitProblem CuttingPlane

namespace Py

variable {W : Type} {st : St W} {la lp lx : ℕ} {vopt : Val} {opts : Options ℝ} {ext : ℕ → String → List Val → M W Val} {fuel : ℕ} {P : ProfitProblem} {p : ℕ} {x : Vec 2} {cl : String}

/-- A run ends with an exception, with `(None, g0, k)`, or with an array other than the one of the centre holding a point `y`, and a value `γ`, that satisfy `good`. -/
def Honest (A : Arith) (lx : ℕ) (g0 : ℝ) (good : Vec 2 → ℝ → Prop) (res : Res W Val) : Prop :=
  (∃ f s2, res = .exc f s2) ∨
  (∃ s2 vg k, res = .ok (.tuple [.none, vg, .int (k : ℕ)]) s2 ∧ vg.toFloat A = some g0) ∨
  ∃ s2 lb y vg γ k, res = .ok (.tuple [.ref lb, vg, .int (k : ℕ)]) s2 ∧ lb ≠ lx ∧ s2.heap lb = some (.vec 2 y) ∧ vg.toFloat A = some γ ∧ good y γ

theorem honest_of {A : Arith} {g0 : ℝ} {good : Vec 2 → ℝ → Prop} {c : Vec 2} {m : Except Fault (Option (Vec 2) × ℝ × ℕ)} {r : Res W Val} (h : Outcome (IsTarget A) lx c m r)
    (h1 : ∀ xb γ k, m = .ok (xb, γ, k) → (xb = none ∧ γ = g0) ∨ ∃ y, xb = some y ∧ good y γ) : Honest A lx g0 good r := by
  obtain ⟨s2, -, h⟩ := h
  rcases m with f | ⟨_ | y, γ, k⟩
  · exact .inl ⟨_, s2, h⟩
  · obtain ⟨vg, h3, h4⟩ := h
    rcases h1 _ _ _ rfl with ⟨-, rfl⟩ | ⟨y, h5, -⟩
    · exact .inr (.inl ⟨s2, vg, k, h3, h4⟩)
    · exact absurd h5 (by simp)
  · obtain ⟨lb, vg, h3, h4, h5, h6⟩ := h
    rcases h1 _ _ _ rfl with ⟨h7, -⟩ | ⟨y', h7, h8⟩
    · exact absurd h7 (by simp)
    · obtain rfl : y = y' := by simpa using h7
      exact .inr (.inr ⟨s2, lb, y, vg, γ, k, h3, h5, h6, h4, h8⟩)

/-- What eleven bits give. -/
theorem eleven_bits (hp : 11 ≤ p) : Literals (Arith.ieee p) ∧ KeepsSign (Arith.ieee p) ∧ (Arith.ieee p).rnd 2 = 2 ∧ (0 : ℝ) ≤ 2⁻¹ ^ p ∧ 2000 * (2⁻¹ : ℝ) ^ p ≤ 1 ∧
    ∀ (val : InitVal 2) (x : Vec 2), (∃ e, (Arith.ieee p).ellInit val x = .ok e) ∧ ∃ e, (Arith.ieee p).stableInit val x = .ok e := by
  have h2 : (2 : ℝ) ^ 11 ≤ 2 ^ p := pow_le_pow_right₀ one_le_two hp
  have hu : (2⁻¹ : ℝ) ^ p ≤ 2⁻¹ ^ 11 := pow_le_pow_of_le_one (by norm_num) (by norm_num) hp
  have hu0 : (0 : ℝ) ≤ 2⁻¹ ^ p := by positivity
  refine ⟨literals_ieee (by omega), fun z hz => ?_, ?_, hu0, by norm_num at hu ⊢; linarith, fun val x => ?_⟩
  · have := roundBits_mono (p := p) (by omega) hz
    rwa [roundBits_zero] at this
  · have := dimension_ieee (p := p) (n := 2) (by push_cast; norm_num at h2; linarith)
    exact_mod_cast this
  · obtain ⟨h, hh, -⟩ := Arith.core_facts (n := 2) (Arith.ieee_accurate p 2) hu0 (by norm_num at hu ⊢; linarith) le_rfl
    refine ⟨?_, ?_⟩
    · unfold Arith.ellInit
      rw [hh]
      cases val <;> exact ⟨_, rfl⟩
    · unfold Arith.stableInit
      rw [hh]
      cases val <;> exact ⟨_, rfl⟩

/-- **C122.** `ProfitOracle((price, scale, limit), elasticities, price_out)` with `Ell(val, x)` or `EllStable(val, x)` and `cutting_plane_optim`, from the text, on machine numbers with at least 11 bits: what is returned is `(None, g0, k)`, or a design that respects the limit together with its
profit, up to factors close to 1, for every start, every value `g0` and all options. -/
theorem C122_text (hp : 11 ≤ p) (hP : P.Proper) (D : Desk (Arith.ieee p) st la lp lx P.alpha P.cost x vopt opts) {val : InitVal 2} {w : Val} (hv : IsInit (Arith.ieee p) st val w) {g0 : ℝ} {vg : Val} (hg : vg.toFloat (Arith.ieee p) = some g0) (hc : cl = "Ell" ∨ cl = "EllStable") :
    ∃ s0 s1, call (mach (Arith.ieee p) ext) (fuel + 3) (.glob "ProfitOracle") [.tuple [.num P.price, .num P.scale, .num P.limit], .ref la, .ref lp] st = .ok (.ref st.next) s0 ∧
      call (mach (Arith.ieee p) ext) (fuel + 3) (.glob cl) [w, .ref lx] s0 = .ok (.ref s0.next) s1 ∧
      Honest (Arith.ieee p) lx g0 (NearProfit P (2⁻¹ ^ p)) (call (mach (Arith.ieee p) ext) (fuel + 8) (.glob "cutting_plane_optim") [.ref st.next, .ref s0.next, vg, vopt] s1) := by
  obtain ⟨hL, -, h2, hu0, hu2, hi⟩ := eleven_bits hp
  have hA := Arith.ieee_accurate p 2
  obtain ⟨⟨e, he⟩, e', he'⟩ := hi val x
  obtain ⟨o, ho, -⟩ := profitInit_good hA hu0 hu2 hP
  have h := C103_profit (ext := ext) (fuel := fuel) hL h2 D P.price P.scale P.limit hv (show IsTarget (Arith.ieee p) g0 vg from hg)
  rw [ho] at h
  obtain ⟨s0, h0, k, k'⟩ := h
  rcases hc with rfl | rfl
  · obtain ⟨s1, k1, k2⟩ := k e he
    exact ⟨s0, s1, h0, k1, honest_of k2 fun xb γ k hm => C122_plain hA hu0 hu2 (ieee_dot_le hu2) hP ho _ _ e g0 opts (Prod.ext rfl (Prod.ext rfl hm))⟩
  · obtain ⟨s1, k1, k2⟩ := k' e' he'
    exact ⟨s0, s1, h0, k1, honest_of k2 fun xb γ k hm => C122_plain hA hu0 hu2 (ieee_dot_le hu2) hP ho _ _ e' g0 opts (Prod.ext rfl (Prod.ext rfl hm))⟩

/-- **C122.** The same for `ProfitRbOracle`: every scenario guarantees the limit and the value, and one attains the value. -/
theorem C122_robust_text {e1 e2 e3 e4 e5 : ℝ} (hp : 11 ≤ p) (hP : RobustProper P e1 e2 e3 e4 e5) (D : Desk (Arith.ieee p) st la lp lx P.alpha P.cost x vopt opts) {val : InitVal 2} {w : Val} (hv : IsInit (Arith.ieee p) st val w) {g0 : ℝ} {vg : Val} (hg : vg.toFloat (Arith.ieee p) = some g0) (hc : cl = "Ell" ∨ cl = "EllStable") :
    ∃ s0 s1, call (mach (Arith.ieee p) ext) (fuel + 3) (.glob "ProfitRbOracle") [.tuple [.num P.price, .num P.scale, .num P.limit], .ref la, .ref lp, .tuple [.num e1, .num e2, .num e3, .num e4, .num e5]] st = .ok (.ref st.next) s0 ∧
      call (mach (Arith.ieee p) ext) (fuel + 3) (.glob cl) [w, .ref lx] s0 = .ok (.ref s0.next) s1 ∧
      Honest (Arith.ieee p) lx g0 (NearRobust P e1 e2 e3 e4 e5 (2⁻¹ ^ p)) (call (mach (Arith.ieee p) ext) (fuel + 8) (.glob "cutting_plane_optim") [.ref st.next, .ref s0.next, vg, vopt] s1) := by
  obtain ⟨hL, -, h2, hu0, hu2, hi⟩ := eleven_bits hp
  have hA := Arith.ieee_accurate p 2
  obtain ⟨⟨e, he⟩, e', he'⟩ := hi val x
  obtain ⟨o, ho⟩ := robustInit_ok hA hu0 hu2 hP.price hP.scale hP.limit hP.cost (P := P) (e1 := e1) (e2 := e2)
  have h := C103_robust (ext := ext) (fuel := fuel) hL h2 D P.price P.scale P.limit e1 e2 e3 e4 e5 hv (show IsTarget (Arith.ieee p) g0 vg from hg)
  rw [ho] at h
  obtain ⟨s0, h0, k, k'⟩ := h
  rcases hc with rfl | rfl
  · obtain ⟨s1, k1, k2⟩ := k e he
    exact ⟨s0, s1, h0, k1, honest_of k2 fun xb γ k hm => C122_robust hA hu0 hu2 (ieee_dot_le hu2) hP.tol1 hP.tol2 hP.tol3 hP.tol4 hP.tol5 hP.price hP.scale hP.limit hP.cost ho _ _ e g0 opts (Prod.ext rfl (Prod.ext rfl hm))⟩
  · obtain ⟨s1, k1, k2⟩ := k' e' he'
    exact ⟨s0, s1, h0, k1, honest_of k2 fun xb γ k hm => C122_robust hA hu0 hu2 (ieee_dot_le hu2) hP.tol1 hP.tol2 hP.tol3 hP.tol4 hP.tol5 hP.price hP.scale hP.limit hP.cost ho _ _ e' g0 opts (Prod.ext rfl (Prod.ext rfl hm))⟩

/-- **C122.** The same for `ProfitQOracle` and `cutting_plane_optim_q`: the point returned is the logarithm of an integer design. -/
theorem C122_discrete_text (hp : 11 ≤ p) (hP : P.Proper) (D : Desk (Arith.ieee p) st la lp lx P.alpha P.cost x vopt opts) {val : InitVal 2} {w : Val} (hv : IsInit (Arith.ieee p) st val w) {g0 : ℝ} {vg : Val} (hg : vg.toFloat (Arith.ieee p) = some g0) (hc : cl = "Ell" ∨ cl = "EllStable") :
    ∃ s0 s1, call (mach (Arith.ieee p) ext) (fuel + 3) (.glob "ProfitQOracle") [.tuple [.num P.price, .num P.scale, .num P.limit], .ref la, .ref lp] st = .ok (.ref st.next) s0 ∧
      call (mach (Arith.ieee p) ext) (fuel + 3) (.glob cl) [w, .ref lx] s0 = .ok (.ref s0.next) s1 ∧
      Honest (Arith.ieee p) lx g0 (fun y γ => ∃ m, NearDiscrete P (2⁻¹ ^ p) m y γ) (call (mach (Arith.ieee p) ext) (fuel + 8) (.glob "cutting_plane_optim_q") [.ref st.next, .ref s0.next, vg, vopt] s1) := by
  obtain ⟨hL, hS, h2, hu0, hu2, hi⟩ := eleven_bits hp
  have hA := Arith.ieee_accurate p 2
  obtain ⟨⟨e, he⟩, e', he'⟩ := hi val x
  obtain ⟨o, ho⟩ : ∃ o, (Arith.ieee p).profitQInit P.price P.scale P.limit P.alpha P.cost = .ok o := by
    obtain ⟨o, ho, -⟩ := profitInit_good hA hu0 hu2 hP
    exact ⟨_, by rw [Arith.profitQInit, ho]; rfl⟩
  have h := C103_discrete (ext := ext) (fuel := fuel) hL hS h2 D P.price P.scale P.limit hv (show IsTarget (Arith.ieee p) g0 vg from hg)
  rw [ho] at h
  obtain ⟨s0, h0, k, k'⟩ := h
  rcases hc with rfl | rfl
  · obtain ⟨s1, k1, k2⟩ := k e he
    exact ⟨s0, s1, h0, k1, honest_of k2 fun xb γ k hm => C122_discrete hA hu0 hu2 (ieee_dot_le hu2) hP (ieee_keepsIntegers p) hS ho _ _ e g0 opts (Prod.ext rfl (Prod.ext rfl hm))⟩
  · obtain ⟨s1, k1, k2⟩ := k' e' he'
    exact ⟨s0, s1, h0, k1, honest_of k2 fun xb γ k hm => C122_discrete hA hu0 hu2 (ieee_dot_le hu2) hP (ieee_keepsIntegers p) hS ho _ _ e' g0 opts (Prod.ext rfl (Prod.ext rfl hm))⟩

/-! ### The hypotheses can be met -/

/-- Doubles, `sampleProfit`, `EllStable(400, x)` and the value 0. -/
example (ext : ℕ → String → List Val → M Unit Val) : ∃ s0 s1,
    call (mach (Arith.ieee 53) ext) 3 (.glob "ProfitOracle") [.tuple [.num 5, .num 2, .num 10], .ref 0, .ref 1] (desk ![1 / 2, 1 / 2] ![1, 1] ![0, 0] 2000 (1 / 10 ^ 20)) = .ok (.ref 4) s0 ∧
      call (mach (Arith.ieee 53) ext) 3 (.glob "EllStable") [.num 400, .ref 2] s0 = .ok (.ref s0.next) s1 ∧
      Honest (Arith.ieee 53) 2 0 (NearProfit sampleProfit (2⁻¹ ^ 53)) (call (mach (Arith.ieee 53) ext) 8 (.glob "cutting_plane_optim") [.ref 4, .ref s0.next, .num 0, .ref 3] s1) :=
  C122_text (fuel := 0) (by norm_num) sampleProfit_proper (desk_ieee 53 ![1 / 2, 1 / 2] ![1, 1] ![0, 0] 2000 (1 / 10 ^ 20)) (.num 400) rfl (.inr rfl)

/-- The robust oracle in doubles. -/
example (ext : ℕ → String → List Val → M Unit Val) : ∃ s0 s1,
    call (mach (Arith.ieee 53) ext) 3 (.glob "ProfitRbOracle") [.tuple [.num 5, .num 2, .num 10], .ref 0, .ref 1, .tuple [.num (1 / 10), .num (1 / 10), .num 1, .num 1, .num 1]] (desk ![1 / 2, 1 / 2] ![1, 1] ![0, 0] 2000 (1 / 10 ^ 20)) = .ok (.ref 4) s0 ∧
      call (mach (Arith.ieee 53) ext) 3 (.glob "Ell") [.num 400, .ref 2] s0 = .ok (.ref s0.next) s1 ∧
      Honest (Arith.ieee 53) 2 0 (NearRobust sampleProfit (1 / 10) (1 / 10) 1 1 1 (2⁻¹ ^ 53)) (call (mach (Arith.ieee 53) ext) 8 (.glob "cutting_plane_optim") [.ref 4, .ref s0.next, .num 0, .ref 3] s1) :=
  C122_robust_text (fuel := 0) (P := sampleProfit) (by norm_num) ⟨by norm_num, by norm_num, by norm_num, by norm_num, by norm_num, by norm_num [sampleProfit], by norm_num [sampleProfit], by norm_num [sampleProfit], fun i => by fin_cases i <;> norm_num [sampleProfit]⟩
    (desk_ieee 53 ![1 / 2, 1 / 2] ![1, 1] ![0, 0] 2000 (1 / 10 ^ 20)) (.num 400) rfl (.inl rfl)

/-- The discrete oracle in doubles. -/
example (ext : ℕ → String → List Val → M Unit Val) : ∃ s0 s1,
    call (mach (Arith.ieee 53) ext) 3 (.glob "ProfitQOracle") [.tuple [.num 5, .num 2, .num 10], .ref 0, .ref 1] (desk ![1 / 2, 1 / 2] ![1, 1] ![0, 0] 2000 (1 / 10 ^ 20)) = .ok (.ref 4) s0 ∧
      call (mach (Arith.ieee 53) ext) 3 (.glob "Ell") [.num 400, .ref 2] s0 = .ok (.ref s0.next) s1 ∧
      Honest (Arith.ieee 53) 2 0 (fun y γ => ∃ m, NearDiscrete sampleProfit (2⁻¹ ^ 53) m y γ) (call (mach (Arith.ieee 53) ext) 8 (.glob "cutting_plane_optim_q") [.ref 4, .ref s0.next, .num 0, .ref 3] s1) :=
  C122_discrete_text (fuel := 0) (by norm_num) sampleProfit_proper (desk_ieee 53 ![1 / 2, 1 / 2] ![1, 1] ![0, 0] 2000 (1 / 10 ^ 20)) (.num 400) rfl (.inl rfl)

end Py

end Ellalgo
