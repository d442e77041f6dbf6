import Verif.Lemmas.RoundedLowpassOracle
import Verif.Props.RoundedPairConverge
import Verif.Props.SourceLowpass
import Verif.Props.SourceConverge

/-!
# C114: filter design in floating point, from the text

`LowpassOracle(...)`, `Ell(R**2, x)` and the loops, run from the text of their files with numbers of `p` bits: the spectrum matrix is built with rounding errors, the responses are computed with rounding errors, and the cuts are pairs of parallel cuts.
-/

namespace Ellalgo

open Matrix Spec

variable {n : ℕ}

/-- **C114.** A response computed by the oracle, the inner product of a row of the spectrum matrix that the constructor has made with a filter, differs from the power spectrum of the filter at the sampled frequency by at most
`340 (n+1) √n 2^-p` times the length of the filter. -/
theorem C114_responses {p : ℕ} (hn : 328 * ((n : ℝ) + 1) ≤ 2 ^ p) {k : ℕ} (hk : k < 15 * n) (x : Vec n) :
    |(Arith.ieee p).dot ((Arith.ieee p).lowRow n (15 * n) k) x - powerSpectrum x (grid n k)| ≤ responseError n p * Real.sqrt (x ⬝ᵥ x) := by
  have hup : (2⁻¹ : ℝ) ^ p * 2 ^ p = 1 := by rw [← mul_pow]; norm_num
  have hu0 : (0 : ℝ) ≤ 2⁻¹ ^ p := by positivity
  have h1 : 328 * ((n : ℝ) + 1) * 2⁻¹ ^ p ≤ 1 := by
    have := mul_le_mul_of_nonneg_left hn hu0
    linarith
  have h0 : 0 ≤ ((n : ℝ) + 1) * 2⁻¹ ^ p := by positivity
  have hγ := Arith.ieee_gamma_le (p := p) (n := n) (by linarith)
  refine (Arith.lowResp_err (Arith.ieee_accurate p n) hu0 (Arith.ieee_nu_le p n) (by linarith) hk x).trans ?_
  refine mul_le_mul_of_nonneg_right ?_ (nrm_nonneg x)
  unfold respErr responseError
  have := mul_le_mul_of_nonneg_right hγ (Real.sqrt_nonneg (n : ℝ))
  linarith

theorem lowEdge_bits {p : ℕ} {w : ℝ} (h : ⌊roundBits p (w * roundBits p ((15 * n - 1 : ℤ) : ℝ))⌋₊ = ⌊w * (15 * n - 1)⌋₊) : (Arith.ieee p).lowEdge (15 * n) w = ⌊w * (((15 * n : ℕ) : ℝ) - 1)⌋₊ + 1 := by
  unfold Arith.lowEdge Arith.mul
  have e1 : (((15 * n : ℕ) - 1 : ℤ) : ℝ) = ((15 * n - 1 : ℤ) : ℝ) := by push_cast; ring
  rw [e1]
  show ⌊roundBits p (w * roundBits p ((15 * n - 1 : ℤ) : ℝ))⌋₊ + 1 = _
  rw [h]
  push_cast
  ring_nf

/-- **C114.** The hypothesis about the band edges holds for every edge `w π` for which `w (15n - 1)` is not within a relative distance `2^-p` of the next integer, and not within that distance above an integer. -/
theorem C114_edges {p : ℕ} {w : ℝ} (hw : 0 ≤ w) (hn : 0 < n) (hp : 15 * (n : ℝ) ≤ 2 ^ p) (h1 : 2⁻¹ ^ p * (w * (15 * n - 1)) ≤ w * (15 * n - 1) - ⌊w * (15 * n - 1)⌋₊)
    (h2 : w * (15 * n - 1) + 2⁻¹ ^ p * (w * (15 * n - 1)) < ⌊w * (15 * n - 1)⌋₊ + 1) : ⌊roundBits p (w * roundBits p ((15 * n - 1 : ℤ) : ℝ))⌋₊ = ⌊w * (15 * n - 1)⌋₊ := by
  have hn1 : (1 : ℝ) ≤ n := by exact_mod_cast hn
  have e1 : roundBits p ((15 * n - 1 : ℤ) : ℝ) = 15 * n - 1 := by
    have := Py.ieee_int (p := p) (k := 15 * n - 1) (by push_cast; rw [abs_of_nonneg (by linarith)]; linarith)
    rw [show roundBits p ((15 * n - 1 : ℤ) : ℝ) = ((15 * n - 1 : ℤ) : ℝ) from this]
    push_cast; rfl
  rw [e1]
  have ht : 0 ≤ w * (15 * (n : ℝ) - 1) := mul_nonneg hw (by linarith)
  generalize w * (15 * (n : ℝ) - 1) = t at *
  have h3 := abs_le.mp ((Arith.ieee_accurate p 0).rnd t)
  rw [abs_of_nonneg ht] at h3
  have h4 : (Arith.ieee p).rnd t = roundBits p t := rfl
  rw [h4] at h3
  have h5 : (0 : ℝ) ≤ ⌊t⌋₊ := Nat.cast_nonneg _
  rw [Nat.floor_eq_iff (by linarith [h3.1])]
  exact ⟨by linarith [h3.1], by linarith [h3.2]⟩

/-- The edges of the standard case, `0.12 π` and `0.20 π` with 48 coefficients, in doubles. -/
example : ⌊roundBits 53 (0.12 * roundBits 53 ((15 * (48 : ℕ) - 1 : ℤ) : ℝ))⌋₊ = ⌊(0.12 : ℝ) * (15 * (48 : ℕ) - 1)⌋₊ ∧ ⌊roundBits 53 (0.2 * roundBits 53 ((15 * (48 : ℕ) - 1 : ℤ) : ℝ))⌋₊ = ⌊(0.2 : ℝ) * (15 * (48 : ℕ) - 1)⌋₊ := by
  have f1 : ⌊(0.12 : ℝ) * (15 * (48 : ℕ) - 1)⌋₊ = 86 := by rw [Nat.floor_eq_iff (by norm_num)]; norm_num
  have f2 : ⌊(0.2 : ℝ) * (15 * (48 : ℕ) - 1)⌋₊ = 143 := by rw [Nat.floor_eq_iff (by norm_num)]; norm_num
  exact ⟨C114_edges (by norm_num) (by norm_num) (by norm_num) (by rw [f1]; norm_num) (by rw [f1]; norm_num), C114_edges (by norm_num) (by norm_num) (by norm_num) (by rw [f2]; norm_num) (by rw [f2]; norm_num)⟩

namespace Spec.FloatDesign

variable {d : LowpassDesign} {p : ℕ} {R r D M γs : ℝ} {x c : Vec n} (H : FloatDesign d n p R r D M γs x c)
include H

theorem radius_le : r ≤ R := Ellalgo.radius_le (by have := H.dim; omega) H.outer_pos H.start

theorem precise : ((n : ℝ) + 1) * (200000 * (D + pairAxes n R r)) * ((n : ℝ) + 1) * 2⁻¹ ^ p ≤ r ∧ 200000 * ((n : ℝ) + 1) ≤ 2 ^ p ∧ R ≤ pairAxes n R r := by
  have hr := H.inner_pos
  have hrR := H.radius_le
  have hD : 0 ≤ D := (Real.sqrt_nonneg _).trans H.centre
  have hT0 := floatIters_nonneg (n := n) hr hrR
  have hΛR := le_pairAxes H.dim hr hrR
  have hn2 : (2 : ℝ) ≤ n := by exact_mod_cast H.dim
  have hup : (2⁻¹ : ℝ) ^ p * 2 ^ p = 1 := by rw [← mul_pow]; norm_num
  have hu0 : (0 : ℝ) ≤ 2⁻¹ ^ p := by positivity
  have hp := H.bits
  generalize pairAxes n R r = Λ at *
  generalize floatIters n R r = T at *
  generalize (2⁻¹ : ℝ) ^ p = u at *
  obtain ⟨Q, hQ⟩ : ∃ Q, Q = (Λ + D) / r := ⟨_, rfl⟩
  have hQ1 : 1 ≤ Q := by rw [hQ, le_div_iff₀ hr]; linarith
  have hDQ : D + Λ = Q * r := by rw [hQ, div_mul_cancel₀ _ hr.ne']; ring
  rw [← hQ] at hp
  obtain ⟨N, hNd⟩ : ∃ N, N = (n : ℝ) + 1 := ⟨_, rfl⟩
  rw [← hNd] at hp ⊢
  have hN : 1 ≤ N := by linarith
  have h1 : 200000 * N ^ 2 * Q ≤ 2 ^ p := by
    refine le_trans ?_ hp
    have a1 : N ^ 2 ≤ N ^ 4 := pow_le_pow_right₀ hN (by norm_num)
    have a2 : Q ≤ Q ^ 7 := le_self_pow₀ hQ1 (by norm_num)
    calc 200000 * N ^ 2 * Q ≤ 200000 * N ^ 4 * Q ^ 7 := by gcongr
      _ = 200000 * N ^ 4 * 1 * Q ^ 7 := by ring
      _ ≤ 200000 * N ^ 4 * (T + 1) * Q ^ 7 := by gcongr; linarith
  refine ⟨?_, ?_, hΛR⟩
  · rw [hDQ]
    have h2 := mul_le_mul_of_nonneg_left h1 hu0
    rw [hup] at h2
    have h3 := mul_le_mul_of_nonneg_right h2 hr.le
    linarith
  · refine le_trans ?_ h1
    have a1 : N ≤ N ^ 2 := le_self_pow₀ hN (by norm_num)
    have a2 : 0 ≤ N ^ 2 := by positivity
    nlinarith

theorem small : 164 * (((1 : ℝ) + 2⁻¹ ^ p) ^ (n + 1) - 1) ≤ 1 ∧ ((1 : ℝ) + 2⁻¹ ^ p) ^ (n + 1) - 1 ≤ 2 * (n + 1) * 2⁻¹ ^ p := by
  obtain ⟨-, h1, -⟩ := H.precise
  have hup : (2⁻¹ : ℝ) ^ p * 2 ^ p = 1 := by rw [← mul_pow]; norm_num
  have hu0 : (0 : ℝ) ≤ 2⁻¹ ^ p := by positivity
  have h2 := mul_le_mul_of_nonneg_left h1 hu0
  have h0 : 0 ≤ ((n : ℝ) + 1) * 2⁻¹ ^ p := by positivity
  have hγ := Arith.ieee_gamma_le (p := p) (n := n) (by linarith)
  exact ⟨by linarith, hγ⟩

theorem setup : LowSetup (Arith.ieee p) d n (2⁻¹ ^ p) ((1 + 2⁻¹ ^ p) ^ (n + 1) - 1) (respErr n ((1 + 2⁻¹ ^ p) ^ (n + 1) - 1) * (D + pairAxes n R r)) r (D + pairAxes n R r) M γs c := by
  obtain ⟨h1, -, h3⟩ := H.precise
  obtain ⟨h4, h5⟩ := H.small
  have hr := H.inner_pos
  have hrR := H.radius_le
  have hc : nrm c ≤ D := H.centre
  have hD : 0 ≤ D := (nrm_nonneg c).trans hc
  refine ⟨Arith.ieee_accurate p n, by positivity, Arith.ieee_nu_le p n, h4, by have := H.dim; omega, H.proper, hr, H.inner, by linarith, H.lp_le, H.up_le, H.level_le, rfl, ?_⟩
  have hup : (2⁻¹ : ℝ) ^ p * 2 ^ p = 1 := by rw [← mul_pow]; norm_num
  have hu0 : (0 : ℝ) ≤ 2⁻¹ ^ p := by positivity
  have hsize : 2 * (2⁻¹ ^ p * M) ≤ r := by
    have := mul_le_mul_of_nonneg_left H.size hu0
    rw [mul_left_comm _ r, hup] at this
    linarith
  have hX : 0 ≤ D + pairAxes n R r := by linarith
  have hsq : Real.sqrt n ≤ (n : ℝ) + 1 := by
    have : (0 : ℝ) ≤ n := Nat.cast_nonneg n
    rw [Real.sqrt_le_iff]; exact ⟨by linarith, by nlinarith⟩
  generalize ((1 : ℝ) + 2⁻¹ ^ p) ^ (n + 1) - 1 = γ at *
  generalize D + pairAxes n R r = X at *
  have hK : respErr n γ * X ≤ 340 * (((n : ℝ) + 1) * ((n : ℝ) + 1) * 2⁻¹ ^ p * X) := by
    unfold respErr
    have a1 : γ * Real.sqrt n ≤ 2 * (n + 1) * 2⁻¹ ^ p * ((n : ℝ) + 1) := mul_le_mul h5 hsq (Real.sqrt_nonneg _) (by positivity)
    have a2 := mul_le_mul_of_nonneg_right a1 hX
    linarith
  have hY : 0 ≤ ((n : ℝ) + 1) * ((n : ℝ) + 1) * 2⁻¹ ^ p * X := by positivity
  linarith

theorem init_good (sp : ℝ) : (Arith.ieee p).LowGood d ((Arith.ieee p).lowInit n d.wpass d.wstop d.lpSq d.upSq sp) where
  mdim := rfl
  spectrum := rfl
  nwpass := lowEdge_bits H.passEdge
  nwstop := lowEdge_bits H.stopEdge
  lpSq := rfl
  upSq := rfl
  idx1 := Nat.succ_pos _
  idx2 := fun h => ⟨le_rfl, h⟩
  idx3 := fun h => ⟨le_rfl, h⟩

theorem stop_lt (hw : d.wstop < 1) : (Arith.ieee p).lowEdge (15 * n) d.wstop < 15 * n := by
  have hn : 0 < n := by have := H.dim; omega
  rw [lowEdge_bits H.stopEdge]
  have h := LowpassOracle.init_good n d 0
  have h1 := (LowpassOracle.nwstop_lt_iff h H.proper hn).mpr hw
  rwa [h.nwstop, h.mdim] at h1

theorem error_le (y : Vec n) : respErr n ((1 + 2⁻¹ ^ p) ^ (n + 1) - 1) * nrm y ≤ responseError n p * Real.sqrt (y ⬝ᵥ y) := by
  refine mul_le_mul_of_nonneg_right ?_ (nrm_nonneg y)
  unfold respErr responseError
  have := mul_le_mul_of_nonneg_right H.small.2 (Real.sqrt_nonneg (n : ℝ))
  linarith

end Spec.FloatDesign

theorem Spec.LowpassDesign.Near.mono {d : LowpassDesign} {γ δ δ' : ℝ} {y : Vec n} (h : d.Near γ δ y) (hδ : δ ≤ δ') : d.Near γ δ' y :=
  ⟨fun k hk h1 => ⟨by linarith [(h.pass k hk h1).1], by linarith [(h.pass k hk h1).2]⟩, fun k hk h1 => ⟨by linarith [(h.stop k hk h1).1], by linarith [(h.stop k hk h1).2]⟩,
    fun k hk h1 h2 => by linarith [h.trans k hk h1 h2], h.first⟩

namespace Py

open CuttingPlane LowpassOracle

section

variable {W : Type} {m : ℕ} {st : St W} {lx : ℕ} {vopt : Val} {opts : Options ℝ} {ext : ℕ → String → List Val → M W Val} {fuel : ℕ}

/-- What `cutting_plane_optim` gives for a design in floating point: an exception, or an array that is not the one of the centre with a filter `y` and a level `γ ≤ γs`; `y` meets the design for the level `γ` up to the error of the responses, and `γ` is
its largest stopband response up to that error. -/
def DesignedFloat (n p : ℕ) (d : LowpassDesign) (γs : ℝ) (lx : ℕ) (res : Res W Val) : Prop :=
  (∃ f s2, res = .exc f s2) ∨
  ∃ s2 lb y vg γ k, res = .ok (.tuple [.ref lb, vg, .int (k : ℕ)]) s2 ∧ lb ≠ lx ∧ s2.heap lb = some (.vec n y) ∧ vg.toReal = some γ ∧ γ ≤ γs ∧
    d.Near γ (responseError n p * Real.sqrt (y ⬝ᵥ y)) y ∧ d.Attains γ (responseError n p * Real.sqrt (y ⬝ᵥ y)) y

theorem edge_ieee_nonneg {p : ℕ} {w : ℝ} (hw : 0 ≤ w) (m : ℕ) : 0 ≤ (Arith.ieee p).mul w ((Arith.ieee p).rnd ((15 * (m + 1) - 1 : ℤ) : ℝ)) := by
  have h1 : (2⁻¹ : ℝ) ^ p ≤ 1 := pow_le_one₀ (by norm_num) (by norm_num)
  have hA := Arith.ieee_accurate p 0
  refine hA.rnd_nonneg h1 (mul_nonneg hw (hA.rnd_nonneg h1 ?_))
  push_cast
  linarith [(Nat.cast_nonneg m : (0 : ℝ) ≤ m)]

theorem ieee_init_ok {n p : ℕ} (hn : 2 ≤ n) (hp : 200000 * ((n : ℝ) + 1) ≤ 2 ^ p) (R : ℝ) (x : Vec n) : ∃ e, (Arith.ieee p).ellInit (.scalar (R ^ 2)) x = .ok e := by
  have hup : (2⁻¹ : ℝ) ^ p * 2 ^ p = 1 := by rw [← mul_pow]; norm_num
  have hu0 : (0 : ℝ) < 2⁻¹ ^ p := by positivity
  have hn2 : (2 : ℝ) ≤ n := by exact_mod_cast hn
  obtain ⟨h, hh, -⟩ := Arith.core_facts (n := n) (Arith.ieee_accurate p n) hu0.le (by nlinarith) hn
  exact ⟨_, by unfold Arith.ellInit; rw [hh]; rfl⟩

theorem two_le_bits {n p : ℕ} (hp : 200000 * ((n : ℝ) + 1) ≤ 2 ^ p) : 2 ≤ p := by
  by_contra h
  have : (2 : ℝ) ^ p ≤ 2 ^ 1 := pow_le_pow_right₀ (by norm_num) (by omega)
  have h0 : (0 : ℝ) ≤ n := Nat.cast_nonneg n
  linarith

/-- **C114.** The whole filter design in floating point, from the text. `LowpassOracle(n, wpass, wstop, lp², up², sp²)`, `Ell(R**2, x)` and `cutting_plane_optim` from a level `g0 > γs`, where the filters that are feasible for `γs` contain a ball of radius
`2r`, with a sufficient number of bits, `8 tolerance ≤ r²` and `max_iters` above `(20/9) n (n+1) ln(2R/r)`. If the run returns, then a filter in a new array with a level `γ ≤ γs`: the filter meets the design for the level `γ` up to the error of
the computed responses. -/
theorem C114_filter_design {d : LowpassDesign} {p : ℕ} {R r D M γs : ℝ} {x c : Vec (m + 1)} (H : FloatDesign d (m + 1) p R r D M γs x c) (hw : d.wstop < 1) (sp : ℝ) (S : Start (Arith.ieee p) st lx x vopt opts)
    {g0 : ℝ} {vg : Val} (hvg : IsNum (Arith.ieee p) g0 vg) (hg : γs < g0) (htol : 8 * opts.tolerance ≤ r ^ 2) (hmax : floatIters (m + 1) R r < opts.maxIters) :
    ∃ s0 s1, call (mach (Arith.ieee p) ext) (fuel + 2) (.glob "LowpassOracle") [.int ((m + 1 : ℕ) : ℤ), .num d.wpass, .num d.wstop, .num d.lpSq, .num d.upSq, .num sp] st = .ok (.ref st.next) s0 ∧
      call (mach (Arith.ieee p) ext) (fuel + 3) (.glob "Ell") [.num (R ^ 2), .ref lx] s0 = .ok (.ref s0.next) s1 ∧
      DesignedFloat (m + 1) p d γs lx (call (mach (Arith.ieee p) ext) (fuel + 8) (.glob "cutting_plane_optim") [.ref st.next, .ref s0.next, vg, vopt] s1) := by
  obtain ⟨-, hp, -⟩ := H.precise
  obtain ⟨hγ, -⟩ := H.small
  have hn2 : (2 : ℝ) ≤ ((m + 1 : ℕ) : ℝ) := by exact_mod_cast H.dim
  have hn : 0 < m + 1 := Nat.succ_pos m
  have hlt := H.stop_lt hw
  obtain ⟨e, he⟩ := ieee_init_ok H.dim hp R x
  obtain ⟨s0, h1, h2, -⟩ := C105_optim (ext := ext) (fuel := fuel) (literals_ieee (two_le_bits hp)) (dimension_ieee (by linarith)) S d.wpass d.wstop d.lpSq d.upSq sp (edge_ieee_nonneg H.proper.wpass_nonneg m) (edge_ieee_nonneg H.proper.wstop_nonneg m) hlt (.num (R ^ 2)) hvg
  obtain ⟨s1, h3, s2, -, h4⟩ := h2 e he
  refine ⟨s0, s1, h1, h3, ?_⟩
  have hgood : (Arith.ieee p).LowInv d ((Arith.ieee p).lowInit (m + 1) d.wpass d.wstop d.lpSq d.upSq sp) := ⟨H.init_good sp, hlt⟩
  have hu0 : (0 : ℝ) ≤ 2⁻¹ ^ p := by positivity
  rcases hres : optim (Arith.ieee p).lowOptim ((Arith.ieee p).space (m + 1)) ltReal ((Arith.ieee p).lowInit (m + 1) d.wpass d.wstop d.lpSq d.upSq sp) e g0 opts with ⟨o', e', f | ⟨xb, γ, k⟩⟩ <;> rw [hres] at h4
  · exact .inl ⟨_, s2, h4⟩
  · have hle : γ ≤ γs := C113_optim_ieee (G := ℝᵒᵈ) H.dim H.outer_pos H.inner_pos H.centre H.bits zero_le_one H.setup.optim le_rfl hgood H.start he (g0 := OrderDual.toDual g0) (OrderDual.toDual_lt_toDual.mpr hg) opts (by rwa [mul_one]) hmax hres
    have hbest := optim_best_spec (I := (Arith.ieee p).LowInv d) (P := fun (y : Vec (m + 1)) γ => d.Near γ (responseError (m + 1) p * Real.sqrt (y ⬝ᵥ y)) y ∧ d.Attains γ (responseError (m + 1) p * Real.sqrt (y ⬝ᵥ y)) y)
      (fun o x g ho => ho.next ((Arith.ieee p).lowOptim_spec ho.1 H.proper hn ho.2 x g).1) (fun o y g o2 cut g1 ho ha => by
        have := ((Arith.ieee p).lowOptim_spec ho.1 H.proper hn ho.2 y g).2
        rw [ha] at this
        rcases this with ⟨cut', a1, -⟩ | ⟨hc, k, k1, k2, k3, a1⟩
        · cases a1
        · simp only [Except.ok.injEq, Prod.mk.injEq, Option.some.injEq] at a1
          obtain ⟨-, rfl⟩ := a1
          have hm := ho.1.mdim
          have b1 : (Arith.ieee p).LowClear { o with spSq := (Arith.ieee p).dot (o.spectrum k) y } y := ⟨hc.pass, fun i i1 i2 => ⟨(hc.stop i i1 i2).1, k3 i i1 i2⟩, hc.trans, hc.first⟩
          refine ⟨(b1.near (ho.1.withLevel _) H.proper (Arith.ieee_accurate p (m + 1)) hu0 (Arith.ieee_nu_le p (m + 1)) hγ hn).mono (H.error_le y), k, by omega, (ho.1.stop_iff H.proper hn k).mp k1, ?_⟩
          rw [abs_sub_comm, ho.1.spectrum]
          exact (Arith.lowResp_err (Arith.ieee_accurate p (m + 1)) hu0 (Arith.ieee_nu_le p (m + 1)) hγ (by omega) y).trans (H.error_le y)) hgood hres
    rcases hbest with ⟨-, rfl⟩ | ⟨y, rfl, h5, h6⟩
    · exact absurd hle (not_le.mpr hg)
    · obtain ⟨lb, vg', h7, h8, h9, h10⟩ := h4
      exact .inr ⟨s2, lb, y, vg', γ, k, h7, h9, h10, h8.2, hle, h5, h6⟩

/-- **C114.** `cutting_plane_feas` with the constructed oracle: if the filters that meet the specification contain a ball of radius `2r`, the run returns the array of `x` with a filter that meets the specification up to the error of the computed
responses, after at most `(20/9) n (n+1) ln(2R/r)` iterations. No stopband is needed. -/
theorem C114_feas_finds {d : LowpassDesign} {p : ℕ} {R r D M sp : ℝ} {x c : Vec (m + 1)} (H : FloatDesign d (m + 1) p R r D M sp x c) (S : Start (Arith.ieee p) st lx x vopt opts) (htol : 8 * opts.tolerance ≤ r ^ 2)
    (hmax : floatIters (m + 1) R r < opts.maxIters) :
    ∃ s0 s1 s2 k y, call (mach (Arith.ieee p) ext) (fuel + 2) (.glob "LowpassOracle") [.int ((m + 1 : ℕ) : ℤ), .num d.wpass, .num d.wstop, .num d.lpSq, .num d.upSq, .num sp] st = .ok (.ref st.next) s0 ∧
      call (mach (Arith.ieee p) ext) (fuel + 3) (.glob "Ell") [.num (R ^ 2), .ref lx] s0 = .ok (.ref s0.next) s1 ∧
      call (mach (Arith.ieee p) ext) (fuel + 8) (.glob "cutting_plane_feas") [.ref st.next, .ref s0.next, vopt] s1 = .ok (.tuple [.ref lx, .int (k : ℕ)]) s2 ∧
      s2.heap lx = some (.vec (m + 1) y) ∧ d.Near sp (responseError (m + 1) p * Real.sqrt (y ⬝ᵥ y)) y ∧ (k : ℝ) ≤ floatIters (m + 1) R r := by
  obtain ⟨-, hp, -⟩ := H.precise
  have hn2 : (2 : ℝ) ≤ ((m + 1 : ℕ) : ℝ) := by exact_mod_cast H.dim
  obtain ⟨e, he⟩ := ieee_init_ok H.dim hp R x
  obtain ⟨s0, h1, h2, -⟩ := C105_feas (ext := ext) (fuel := fuel) (literals_ieee (two_le_bits hp)) (dimension_ieee (by linarith)) S d.wpass d.wstop d.lpSq d.upSq sp (edge_ieee_nonneg H.proper.wpass_nonneg m) (edge_ieee_nonneg H.proper.wstop_nonneg m) (.num (R ^ 2))
  obtain ⟨s1, h3, s2, h4, h5⟩ := h2 e he
  obtain ⟨o', e', y, k, h6, h7, h8⟩ := C113_feas_ieee H.dim H.outer_pos H.inner_pos H.centre H.bits zero_le_one H.setup.feas le_rfl ⟨H.init_good sp, rfl⟩ H.start he opts (by rwa [mul_one]) hmax
  have h6' : feas (Arith.ieee p).lowFeas ((Arith.ieee p).space (m + 1)) ltReal ((Arith.ieee p).lowInit (m + 1) d.wpass d.wstop d.lpSq d.upSq sp) e opts = (o', e', .ok (some y, k)) := h6
  rw [h6'] at h4 h5
  obtain ⟨h5, hy⟩ := h5
  rw [hy] at h4
  exact ⟨s0, s1, s2, k, y, h1, h3, h5, h4, LowpassDesign.Near.mono h7 (H.error_le y), h8⟩

end

/-! ### An instance in doubles -/

/-- A passband with the response in `[0, 9]` at frequency 0, the stopband above `π/2`. -/
noncomputable def wideDesign : LowpassDesign := ⟨0, 1 / 2, 0, 9⟩

theorem wide_iters : floatIters 2 (11 / 10) 1 ≤ 1057 / 100 := by
  have h1 : Real.log ((11 / 5) ^ 7) ≤ Real.log (2 ^ 8) := Real.log_le_log (by norm_num) (by norm_num)
  rw [Real.log_pow, Real.log_pow] at h1
  have h2 := Real.log_two_lt_d9
  unfold floatIters
  rw [show (2 : ℝ) * (11 / 10) / 1 = 11 / 5 by norm_num]
  push_cast at h1 ⊢
  linarith

theorem wide_axes : pairAxes 2 (11 / 10) 1 ≤ 66 / 10 := by
  have hT := wide_iters
  unfold pairAxes
  rw [show (2 : ℝ) * (11 / 10) / 1 = 11 / 5 by norm_num]
  have h1 : Real.exp ((((2 : ℕ) : ℝ) * Real.log (11 / 5) + (floatIters 2 (11 / 10) 1 + 1) / (20 * (((2 : ℕ) : ℝ) + 1))) / (((2 : ℕ) : ℝ) - 1)) ≤ Real.exp (2 * Real.log (11 / 5) + 193 / 1000) := by
    refine Real.exp_le_exp.mpr ?_
    push_cast
    linarith
  have h2 : Real.exp (2 * Real.log (11 / 5)) = (11 / 5) ^ 2 := by
    rw [show (2 : ℝ) * Real.log (11 / 5) = ((2 : ℕ) : ℝ) * Real.log (11 / 5) by norm_num, Real.exp_nat_mul, Real.exp_log (by norm_num)]
  rw [Real.exp_add, h2] at h1
  have h4 : Real.exp (193 / 1000) ≤ 1000 / 807 := by
    have h5 := Real.add_one_le_exp (-(193 / 1000) : ℝ)
    rw [Real.exp_neg] at h5
    have h6 := Real.exp_pos (193 / 1000 : ℝ)
    rw [le_inv_comm₀ (by norm_num) h6] at h5
    refine h5.trans (by norm_num)
  linarith

theorem wide_ball : ball (![9 / 2, 0] : Vec 2) (2 * 1) ⊆ wideDesign.Feasible 2 9 := by
  intro y hy
  simp only [ball, Set.mem_ofPred_eq, dotProduct, Fin.sum_univ_two, Pi.sub_apply, Matrix.cons_val_zero, Matrix.cons_val_one] at hy
  have key : ∀ w, 0 ≤ powerSpectrum y w ∧ powerSpectrum y w ≤ 9 := by
    intro w
    rw [spectrum_two]
    have hc := Real.neg_one_le_cos w
    have hc2 := Real.cos_le_one w
    have hsq : Real.cos w ^ 2 ≤ 1 := by nlinarith
    have h1 : (y 0 - 9 / 2 + 2 * y 1 * Real.cos w) ^ 2 ≤ (9 / 2) ^ 2 := by
      have e1 : (y 0 - 9 / 2 + 2 * y 1 * Real.cos w) ^ 2 ≤ ((y 0 - 9 / 2) ^ 2 + y 1 ^ 2) * (1 + 4 * Real.cos w ^ 2) := by nlinarith [sq_nonneg (2 * Real.cos w * (y 0 - 9 / 2) - y 1)]
      have e2 : ((y 0 - 9 / 2) ^ 2 + y 1 ^ 2) * (1 + 4 * Real.cos w ^ 2) ≤ 4 * 5 := mul_le_mul (by nlinarith) (by linarith) (by positivity) (by norm_num)
      linarith
    have h2 := abs_le_of_sq_le_sq h1 (by norm_num)
    rw [abs_le] at h2
    constructor <;> linarith [h2.1, h2.2]
  have b0 : |y 0 - 9 / 2| ≤ 2 := abs_le_of_sq_le_sq (by nlinarith [mul_self_nonneg (y 1 - 0)]) (by norm_num)
  rw [abs_le] at b0
  refine ⟨⟨fun k _ _ => key _, fun k _ _ => (key _).1, fun k _ _ _ => (key _).1, fun _ => ?_⟩, fun k _ _ => (key _).2⟩
  show 0 ≤ y 0
  linarith [b0.1]

/-- The hypotheses of C114 in doubles, with two coefficients, from the disc of radius 1.1 around `(4.4, 0)`. -/
theorem wide_float : FloatDesign wideDesign 2 53 (11 / 10) 1 (9 / 2) 9 9 ![44 / 10, 0] ![9 / 2, 0] := by
  have h29 : roundBits 53 ((15 * (2 : ℕ) - 1 : ℤ) : ℝ) = 29 := by
    norm_num; exact_mod_cast rbN 29 (by norm_num)
  have hT := wide_iters
  have hT0 : 0 ≤ floatIters 2 (11 / 10) 1 := floatIters_nonneg (by norm_num) (by norm_num)
  have hA0 : 0 ≤ pairAxes 2 (11 / 10) 1 := by unfold pairAxes; positivity
  refine ⟨le_rfl, ⟨by norm_num [wideDesign], by norm_num [wideDesign], by norm_num [wideDesign], by norm_num [wideDesign]⟩, ?_, ?_, by norm_num, one_pos, wide_ball, fun y hy => ?_, ?_, by norm_num [wideDesign], by norm_num [wideDesign], by norm_num, by norm_num, ?_⟩
  · rw [h29]
    have : roundBits 53 0 = 0 := by simp [roundBits]
    simp [wideDesign, this]
  · rw [h29]
    have hh : roundBits 53 (1 / 2 * 29) = 29 / 2 := by
      have := rb 29 1 (by norm_num)
      norm_num at this ⊢
      exact this
    simp only [wideDesign]
    rw [hh]
    norm_num
  · simp only [ball, Set.mem_ofPred_eq, dotProduct, Fin.sum_univ_two, Pi.sub_apply, Matrix.cons_val_zero, Matrix.cons_val_one] at hy ⊢
    have b0 : |y 0 - 9 / 2| ≤ 1 := abs_le_of_sq_le_sq (by nlinarith [mul_self_nonneg (y 1 - 0)]) (by norm_num)
    rw [abs_le] at b0
    nlinarith [b0.1, b0.2]
  · simp only [dotProduct, Fin.sum_univ_two, Matrix.cons_val_zero, Matrix.cons_val_one]
    rw [Real.sqrt_le_iff]; norm_num
  · have h1 : ((pairAxes 2 (11 / 10) 1 + 9 / 2) / 1) ^ 7 ≤ (111 / 10) ^ 7 := by
      have := wide_axes
      rw [div_one]
      refine pow_le_pow_left₀ (by positivity) ?_ 7
      linarith
    calc _ ≤ 200000 * (((2 : ℕ) : ℝ) + 1) ^ 4 * (1057 / 100 + 1) * (111 / 10) ^ 7 := by gcongr
      _ ≤ _ := by norm_num

/-- C114 in doubles: the design `wideDesign`, both loops, on a heap with the first point and options. -/
example : (∀ ext fuel, ∃ s0 s1 : St Unit,
      call (mach (Arith.ieee 53) ext) (fuel + 2) (.glob "LowpassOracle") [.int 2, .num 0, .num (1 / 2), .num 0, .num 9, .num 1] (desk 0 0 ![44 / 10, 0] 3000 0) = .ok (.ref 4) s0 ∧
      call (mach (Arith.ieee 53) ext) (fuel + 3) (.glob "Ell") [.num ((11 / 10) ^ 2), .ref 2] s0 = .ok (.ref s0.next) s1 ∧
      DesignedFloat 2 53 wideDesign 9 2 (call (mach (Arith.ieee 53) ext) (fuel + 8) (.glob "cutting_plane_optim") [.ref 4, .ref s0.next, .num 16, .ref 3] s1)) ∧
    (∀ ext fuel, ∃ (s0 s1 s2 : St Unit) (k : ℕ) (y : Vec 2),
      call (mach (Arith.ieee 53) ext) (fuel + 2) (.glob "LowpassOracle") [.int 2, .num 0, .num (1 / 2), .num 0, .num 9, .num 9] (desk 0 0 ![44 / 10, 0] 3000 0) = .ok (.ref 4) s0 ∧
      call (mach (Arith.ieee 53) ext) (fuel + 3) (.glob "Ell") [.num ((11 / 10) ^ 2), .ref 2] s0 = .ok (.ref s0.next) s1 ∧
      call (mach (Arith.ieee 53) ext) (fuel + 8) (.glob "cutting_plane_feas") [.ref 4, .ref s0.next, .ref 3] s1 = .ok (.tuple [.ref 2, .int k]) s2 ∧ s2.heap 2 = some (.vec 2 y) ∧
      wideDesign.Near 9 (responseError 2 53 * Real.sqrt (y ⬝ᵥ y)) y) := by
  have hmax : floatIters 2 (11 / 10) 1 < ((3000 : ℕ) : ℝ) := wide_iters.trans_lt (by norm_num)
  have D : Start (Arith.ieee 53) (desk 0 0 ![44 / 10, 0] 3000 0) 2 (![44 / 10, 0] : Vec (1 + 1)) (.ref 3) ⟨3000, 0⟩ :=
    ⟨rfl, show 2 < 4 by decide, ⟨3, _, rfl, rfl, .inl rfl, .inl ⟨_, rfl, rfl⟩⟩, by rintro k ⟨⟩; exact (show 3 < 4 by decide)⟩
  refine ⟨fun ext fuel => ?_, fun ext fuel => ?_⟩
  · exact C114_filter_design (m := 1) wide_float (by norm_num [wideDesign]) 1 D (IsNum.num _ 16) (by norm_num) (by norm_num) hmax
  · obtain ⟨s0, s1, s2, k, y, h1, h2, h3, h4, h5, -⟩ := C114_feas_finds (ext := ext) (fuel := fuel) (m := 1) wide_float D (by norm_num) hmax
    exact ⟨s0, s1, s2, k, y, h1, h2, h3, h4, h5⟩

end Py

end Ellalgo
