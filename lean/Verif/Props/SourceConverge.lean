import Verif.Props.RoundedConverge
import Verif.Props.SourceLmi

/-!
# Linear matrix inequalities in floating point, end to end, from the text

The oracles are rounded, the ellipsoid is rounded, and nevertheless the run must find a point.
-/

namespace Ellalgo

open Finset Matrix Spec CuttingPlane

variable {m q : ℕ}

/-- A linear matrix inequality `B - Σ x_k F_k ⪰ 0` that holds with a margin `μ` on the ball of radius `r` around `c`; `w` bounds the absolute values of the entries, for points up to `X` from the origin. -/
structure Spec.LmiSlack (matF : Fin q → Mat m) (matB : Mat m) (c : Vec q) (r μ X w : ℝ) : Prop where
  slack : ∀ z ∈ ball c r, ∀ v, μ * (v ⬝ᵥ v) ≤ v ⬝ᵥ (lmiMat matF matB z *ᵥ v)
  size : ∀ v, absQuad matB v + 3 * X * ∑ k, absQuad (matF k) v ≤ w * (v ⬝ᵥ v)

/-- A run of `cutting_plane_feas` on `Ell(R ** 2, x)` for such an inequality with `p` bits that has enough of everything: bits for the ellipsoid, bits for the order of the matrices, bits for the margin, a small tolerance, iterations. -/
structure Spec.LmiRun (matF : Fin q → Mat m) (matB : Mat m) (x c : Vec q) (p : ℕ) (R r D μ w : ℝ) (opts : Options ℝ) : Prop where
  dim : 2 ≤ q
  r_pos : 0 < r
  R_pos : 0 < R
  margin_pos : 0 < μ
  centre : Real.sqrt (c ⬝ᵥ c) ≤ D
  inside : ball c r ⊆ ball x R
  slack : LmiSlack matF matB c r μ (D + floatAxes q R r) w
  bits : 24000 * ((q : ℝ) + 1) ^ 4 * (floatIters q R r + 1) * ((floatAxes q R r + D) / r) ^ 4 ≤ 2 ^ p
  order : 260 * m * ((m : ℝ) + q + 1) ≤ 2 ^ p
  margin : 208 * m * ((m : ℝ) + q + 1) * w ≤ μ * 2 ^ p
  tol : 8 * opts.tolerance ≤ r ^ 2 * (μ / (4 * (D + floatAxes q R r))) ^ 2
  iters : floatIters q R r < opts.maxIters

theorem abs_le_nrm (x : Vec q) (k : Fin q) : |x k| ≤ nrm x := by
  unfold nrm
  rw [← Real.sqrt_sq_eq_abs]
  refine Real.sqrt_le_sqrt ?_
  rw [sq]
  exact single_le_sum (f := fun i => x i * x i) (fun i _ => mul_self_nonneg _) (mem_univ k)

theorem neg_absQuad_le (M : Mat m) (v : Vec m) : |v ⬝ᵥ (M *ᵥ v)| ≤ absQuad M v := by
  have h := quad_diff_le (M := M) (N := 0) (T := M) (θ := 1) (fun i j => by simp) v
  simpa using h

theorem neg_absQuad_lmi (matF : Fin q → Mat m) (matB : Mat m) (x : Vec q) (v : Vec m) : -(absQuad matB v + ∑ k, |x k| * absQuad (matF k) v) ≤ v ⬝ᵥ (lmiMat matF matB x *ᵥ v) := by
  rw [quad_lmi]
  have h1 := (abs_le.mp (neg_absQuad_le matB v)).1
  have h2 : (fun k => v ⬝ᵥ (matF k *ᵥ v)) ⬝ᵥ x ≤ ∑ k, |x k| * absQuad (matF k) v := by
    refine sum_le_sum fun k _ => ?_
    calc (v ⬝ᵥ (matF k *ᵥ v)) * x k ≤ |(v ⬝ᵥ (matF k *ᵥ v)) * x k| := le_abs_self _
      _ = |x k| * |v ⬝ᵥ (matF k *ᵥ v)| := by rw [abs_mul, mul_comm]
      _ ≤ _ := mul_le_mul_of_nonneg_left (neg_absQuad_le _ v) (abs_nonneg _)
  linarith

/-- The arithmetic of a cut: what the error bound of the cut gives where the inequality holds with a margin. -/
theorem slack_cut {t μ w s e a b gz gx : ℝ} (hs : 1 ≤ s) (hμ : 0 < μ) (hw : 0 ≤ w) (ht0 : 0 ≤ t) (ht : 10 * t ≤ 1) (hμt : 8 * t * w ≤ μ) (_he : 0 ≤ e) (ha : a ≤ w * s) (hb : b ≤ w * s) (hgx : -a ≤ gx) (hgz : μ * s ≤ gz)
    (h1 : e + gx ≤ t * (a + e)) {d : ℝ} (h2 : d + e + gz ≤ t * (b + e)) : d + e ≤ -(μ / 2 * s) := by
  have hs0 : 0 ≤ w * s := by positivity
  have h3 : t * a ≤ t * (w * s) := mul_le_mul_of_nonneg_left ha ht0
  have h4 : t * b ≤ t * (w * s) := mul_le_mul_of_nonneg_left hb ht0
  have h6 : t * (w * s) ≤ w * s / 10 := by nlinarith
  have h7 : t * e ≤ e / 10 := by nlinarith
  have h5 : e ≤ 2 * (w * s) := by nlinarith
  have h8 : t * e ≤ t * (2 * (w * s)) := mul_le_mul_of_nonneg_left h5 ht0
  have h9 : 8 * t * w * s ≤ μ * s := mul_le_mul_of_nonneg_right hμt (by linarith)
  nlinarith

/-- The LMI oracles in floating point fulfil the requirements of C106. -/
theorem lmi_inner {matF : Fin q → Mat m} {matB : Mat m} {assess : LDLTMgr ℝ → Vec q → LDLTMgr ℝ × Except Fault (Option (Vec q × ℝ))} {γ : ℝ} (hans : ∀ o x, o.ndim = m → LmiAnswer matF matB x γ (assess o x))
    {c : Vec q} {r μ X w : ℝ} (hγ : 0 ≤ γ) (hr : 0 < r) (hμ : 0 < μ) (hs : LmiSlack matF matB c r μ X w) (hX : nrm c + r ≤ X) (h1 : 130 * m * γ ≤ 1) (h2 : 104 * m * γ * w ≤ μ) :
    InnerOracle (fun o => o.ndim = m) {y | ∀ v, -(7 * m * γ * w * (v ⬝ᵥ v)) ≤ v ⬝ᵥ (lmiMat matF matB y *ᵥ v)} c r ((μ / (4 * X)) ^ 2) X
      (fun o x => ((assess o x).1, (assess o x).2.map fun r => r.map fun c => (c.1, .scalar c.2))) := by
  have hX0 : 0 < X := by linarith [nrm_nonneg c]
  have hsum : ∀ (f : Fin q → ℝ), (∀ k, f k ≤ 3 * X) → ∀ v, absQuad matB v + ∑ k, f k * absQuad (matF k) v ≤ w * (v ⬝ᵥ v) := fun f hf v => by
    have : ∑ k, f k * absQuad (matF k) v ≤ 3 * X * ∑ k, absQuad (matF k) v := by
      rw [mul_sum]
      exact sum_le_sum fun k _ => mul_le_mul_of_nonneg_right (hf k) (absQuad_nonneg _ _)
    linarith [hs.size v]
  have hx1 : ∀ x : Vec q, nrm x ≤ X → ∀ k, |x k| ≤ 3 * X := fun x hx k => by linarith [abs_le_nrm x k]
  have hm0 : (0 : ℝ) ≤ m * γ := by positivity
  refine ⟨fun o x ho => (hans o x ho).runs.1, fun o x o' f ho h => ?_, fun o x o' ho hx h => ?_, fun o x o' cut ho hx h => ?_⟩
  · obtain ⟨-, a, ha⟩ := (hans o x ho).runs
    simp only [ha, Except.map, Prod.mk.injEq, reduceCtorEq, and_false] at h
  · obtain ⟨-, a, ha⟩ := (hans o x ho).runs
    have hacc := (hans o x ho).accepted
    rcases a with _ | a
    · intro v
      have h3 := hacc ha v
      have h4 := hsum _ (hx1 x hx) v
      have h5 := mul_le_mul_of_nonneg_left h4 (show (0 : ℝ) ≤ 7 * m * γ by nlinarith)
      linarith
    · simp only [ha, Except.map, Option.map, Prod.mk.injEq, Except.ok.injEq, reduceCtorEq, and_false] at h
  · obtain ⟨-, a, ha⟩ := (hans o x ho).runs
    rcases a with _ | ⟨g, ep⟩
    · simp only [ha, Except.map, Option.map, Prod.mk.injEq, Except.ok.injEq, reduceCtorEq, and_false] at h
    simp only [ha, Except.map, Option.map, Prod.mk.injEq, Except.ok.injEq, Option.some.injEq] at h
    obtain ⟨-, rfl⟩ := h
    obtain ⟨hep, v, ⟨i, hi⟩, -, -, hcut⟩ := (hans o x ho).rejected g ep ha
    have hv1 : 1 ≤ v ⬝ᵥ v := by
      have := single_le_sum (f := fun i => v i * v i) (fun i _ => mul_self_nonneg _) (mem_univ i)
      simpa [hi, dotProduct] using this
    have hw : 0 ≤ w := by
      have h3 := hs.size v
      have h4 : 0 ≤ absQuad matB v + 3 * X * ∑ k, absQuad (matF k) v := by
        have := absQuad_nonneg matB v
        have : 0 ≤ ∑ k, absQuad (matF k) v := sum_nonneg fun k _ => absQuad_nonneg _ _
        positivity
      by_contra hneg
      nlinarith
    have hcx := hcut x
    simp only [sub_self, dotProduct_zero, zero_add, Pi.sub_apply, abs_zero, add_zero] at hcx
    have hkey : ∀ z ∈ ball c r, g ⬝ᵥ (z - x) + ep ≤ -(μ / 2 * (v ⬝ᵥ v)) := fun z hz => by
      have hz1 : nrm z ≤ X := by
        have h3 := nrm_add_le c (z - c)
        have h4 : nrm (z - c) ≤ r := nrm_le_of_sq hr.le hz
        rw [add_sub_cancel] at h3
        linarith
      refine slack_cut (t := 13 * m * γ) (e := ep) (a := absQuad matB v + ∑ k, |x k| * absQuad (matF k) v) (b := absQuad matB v + ∑ k, (|x k| + |z k - x k|) * absQuad (matF k) v) hv1 hμ hw (by nlinarith) (by linarith) (by linarith) hep
        (hsum _ (hx1 x hx) v) (hsum _ (fun k => ?_) v) (neg_absQuad_lmi matF matB x v) (hs.slack z hz v) hcx (hcut z)
      have h3 := abs_le_nrm x k
      have h4 := abs_le_nrm z k
      have h5 := abs_sub (z k) (x k)
      have hx' : nrm x ≤ X := hx
      linarith
    have hg : μ / (4 * X) ≤ nrm g := by
      have h3 := hkey c (by simp [ball]; positivity)
      have h4 := (abs_le.mp (abs_dot_le g (c - x))).1
      have h5 : nrm (c - x) ≤ 2 * X := by
        have h6 := nrm_add_le c (-x)
        rw [nrm_neg, ← sub_eq_add_neg] at h6
        have hx' : nrm x ≤ X := hx
        linarith
      have h6 := mul_le_mul_of_nonneg_left h5 (nrm_nonneg g)
      rw [div_le_iff₀ (by positivity)]
      nlinarith
    have hpos : 0 < μ / (4 * X) := by positivity
    refine ⟨ep, rfl, hep, fun y hy => ?_, ?_, ?_⟩
    · have := hkey y hy
      nlinarith
    · rintro rfl
      have : nrm (0 : Vec q) = 0 := by simp [nrm]
      simp only [this] at hg
      linarith
    · rw [← nrm_sq]
      exact pow_le_pow_left₀ hpos.le hg 2

theorem Arith.Accurate.mono {A : Arith} {u γ γ' : ℝ} {N N' : ℕ} (h : A.Accurate u γ N) (hN : N' ≤ N) (hγ : γ ≤ γ') : A.Accurate u γ' N' where
  rnd := h.rnd
  dot x y hn := (h.dot x y (hn.trans hN)).trans (mul_le_mul_of_nonneg_right hγ (by positivity))
  mv M x hn i := (h.mv M x (hn.trans hN) i).trans (mul_le_mul_of_nonneg_right hγ (by positivity))

namespace Py

variable {W O : Type} {own : St W → ℕ → Prop} {Q : St W → O → Prop} {vo vopt : Val} {opts : Options ℝ} {ext : ℕ → String → List Val → M W Val} {fuel p : ℕ}

theorem ieee_int {k : ℤ} (hk : |(k : ℝ)| < 2 ^ p) : (Arith.ieee p).rnd k = k := by
  have := roundBits_exact (p := p) k 0 hk
  simpa [Arith.ieee] using this

/-- With two bits or more the literals 0, 1/2, 1, 2 are exact. -/
theorem literals_ieee (hp : 2 ≤ p) : Literals (Arith.ieee p) where
  zero := by exact_mod_cast ieee_int (p := p) (k := 0) (by simp)
  half := by
    have h1 : (1 : ℝ) < 2 ^ p := one_lt_pow₀ (by norm_num) (by omega)
    have := roundBits_exact (p := p) 1 (-1) (by simpa using h1)
    norm_num at this
    exact this
  one := by
    have h1 : (1 : ℝ) < 2 ^ p := one_lt_pow₀ (by norm_num) (by omega)
    exact_mod_cast ieee_int (p := p) (k := 1) (by simpa using h1)
  two := by
    have h1 : (2 : ℝ) ^ 1 < 2 ^ p := pow_lt_pow_right₀ (by norm_num) (by omega)
    exact_mod_cast ieee_int (p := p) (k := 2) (by simpa using h1)

/-- Dimensions below `2^p` are exact. -/
theorem dimension_ieee {n : ℕ} (hn : (n : ℝ) < 2 ^ p) : (Arith.ieee p).rnd n = n := by
  exact_mod_cast ieee_int (p := p) (k := n) (by simpa using hn)

theorem bits_large {n : ℕ} (hn : 2 ≤ n) {R r D : ℝ} (hr : 0 < r) (hrR : r ≤ R) (hD : 0 ≤ D) (hp : 24000 * ((n : ℝ) + 1) ^ 4 * (floatIters n R r + 1) * ((floatAxes n R r + D) / r) ^ 4 ≤ 2 ^ p) :
    R ≤ floatAxes n R r ∧ 24000 * ((n : ℝ) + 1) ≤ 2 ^ p ∧ 2 ≤ p := by
  have hn2 : (2 : ℝ) ≤ n := by exact_mod_cast hn
  have hT0 := floatIters_nonneg (n := n) hr hrR
  have hR : R ≤ floatAxes n R r := by
    unfold floatAxes
    have : 1 ≤ Real.exp (5 * (floatIters n R r + 1) / (9 * ((n : ℝ) ^ 2 - 1))) := Real.one_le_exp (div_nonneg (by linarith) (by nlinarith))
    nlinarith
  have h1 : 1 ≤ ((floatAxes n R r + D) / r) ^ 4 := one_le_pow₀ (by rw [le_div_iff₀ hr]; linarith)
  have h2 : (n : ℝ) + 1 ≤ ((n : ℝ) + 1) ^ 4 := le_self_pow₀ (by linarith) (by norm_num)
  have h3 : 24000 * ((n : ℝ) + 1) ≤ 2 ^ p := by
    refine le_trans ?_ hp
    calc 24000 * ((n : ℝ) + 1) = 24000 * ((n : ℝ) + 1) * 1 * 1 := by ring
      _ ≤ 24000 * ((n : ℝ) + 1) ^ 4 * (floatIters n R r + 1) * ((floatAxes n R r + D) / r) ^ 4 := by
        gcongr
        linarith
  refine ⟨hR, h3, ?_⟩
  by_contra hc
  have h4 : (2 : ℝ) ^ p ≤ 2 ^ 1 := pow_le_pow_right₀ (by norm_num) (by omega)
  linarith

/-- **C107.** From the text alone, on machine numbers with `p` bits: `space = Ell(R ** 2, x)` and `cutting_plane_feas(omega, space, options)` return an array with a point that the oracle accepts, within `(20/9) n (n + 1) ln(2R/r)`
iterations, for every oracle that keeps a ball of radius `r`; the oracle may be rounded itself. -/
theorem C107_feas {n : ℕ} {omega : OracleFeas O (Vec n) (Cut n)} {I : O → Prop} {F : Set (Vec n)} {R r D η X : ℝ} (hn : 2 ≤ n) (hR : 0 < R) (hr : 0 < r) {c : Vec n} (hc : nrm c ≤ D)
    (hp : 24000 * ((n : ℝ) + 1) ^ 4 * (floatIters n R r + 1) * ((floatAxes n R r + D) / r) ^ 4 ≤ 2 ^ p) (hη : 0 ≤ η) (hω : InnerOracle I F c r η X omega) (hX : D + floatAxes n R r ≤ X)
    (hQ : FeasOracle (Arith.ieee p) ext (fuel + 7) vo own omega Q) {st : St W} {o : O} (hI : I o) (ho : Q st o) (hopt : OptionsAt (Arith.ieee p) st vopt opts) (hlt : ∀ k, vopt = .ref k → k < st.next) {lx : ℕ} {x : Vec n}
    (hx : st.heap lx = some (.vec n x)) (hltx : lx < st.next) (hox : ¬ own st lx) (hsub : ball c r ⊆ ball x R) (htol : 8 * opts.tolerance ≤ r ^ 2 * η) (hmax : floatIters n R r < opts.maxIters) :
    ∃ s1 s2 k y, call (mach (Arith.ieee p) ext) (fuel + 3) (.glob "Ell") [.num (R ^ 2), .ref lx] st = .ok (.ref st.next) s1
      ∧ call (mach (Arith.ieee p) ext) (fuel + 8) (.glob "cutting_plane_feas") [vo, .ref st.next, vopt] s1 = .ok (.tuple [.ref lx, .int (k : ℕ)]) s2
      ∧ s2.heap lx = some (.vec n y) ∧ y ∈ F ∧ (k : ℝ) ≤ floatIters n R r := by
  obtain ⟨-, hb, hp2⟩ := bits_large hn hr (radius_le (by omega) hR hsub) ((nrm_nonneg c).trans hc) hp
  have hA := literals_ieee hp2
  have hup : (2⁻¹ : ℝ) ^ p * 2 ^ p = 1 := by rw [← mul_pow]; norm_num
  have hu0 : (0 : ℝ) < 2⁻¹ ^ p := by positivity
  obtain ⟨h, hh, -⟩ := Arith.core_facts (n := n) (Arith.ieee_accurate p n) hu0.le (by nlinarith) hn
  obtain ⟨e, he⟩ : ∃ e, (Arith.ieee p).ellInit (.scalar (R ^ 2)) x = .ok e := ⟨_, by unfold Arith.ellInit; rw [hh]; rfl⟩
  obtain ⟨s1, lm, h1, h2⟩ := ready_init hA (dimension_ieee (by nlinarith)) hQ.toOracleAt ho hopt hlt (ext := ext) (fuel := fuel) (.num (R ^ 2)) hx hltx hox he
  obtain ⟨o', e', y, k, h3, h4, h5⟩ := C106_feas_ieee hn hR hr hc hp hη hω hX hI hsub he opts htol hmax
  obtain ⟨s2, h6, -, h7⟩ := C98_feas hA hQ h2
  rw [h3] at h6 h7
  exact ⟨s1, s2, k, y, h1, h6, h7 y k rfl, h4, h5⟩

/-- **C107.** The same for `cutting_plane_optim(omega, space, gamma, options)`: unless it raises, the value returned is at least as good as the target. -/
theorem C107_optim {G : Type} [LinearOrder G] {n : ℕ} {omega : OracleOptim O (Vec n) (Cut n) G} {I : O → Prop} {γs : G} {R r D η X : ℝ} (hn : 2 ≤ n) (hR : 0 < R) (hr : 0 < r) {c : Vec n} (hc : nrm c ≤ D)
    (hp : 24000 * ((n : ℝ) + 1) ^ 4 * (floatIters n R r + 1) * ((floatAxes n R r + D) / r) ^ 4 ≤ 2 ^ p) (hη : 0 ≤ η) (hω : InnerLevelOracle I γs c r η X omega) (hX : D + floatAxes n R r ≤ X) {isG : G → Val → Prop}
    (hQ : OptimOracle (Arith.ieee p) ext (fuel + 7) vo own omega isG Q) {st : St W} {o : O} (hI : I o) (ho : Q st o) (hopt : OptionsAt (Arith.ieee p) st vopt opts) (hlt : ∀ k, vopt = .ref k → k < st.next) {lx : ℕ} {x : Vec n}
    (hx : st.heap lx = some (.vec n x)) (hltx : lx < st.next) (hox : ¬ own st lx) (hsub : ball c r ⊆ ball x R) {g0 : G} {vg : Val} (hg : isG g0 vg) (hg0 : g0 < γs) (htol : 8 * opts.tolerance ≤ r ^ 2 * η)
    (hmax : floatIters n R r < opts.maxIters) :
    ∃ s1 s2, call (mach (Arith.ieee p) ext) (fuel + 3) (.glob "Ell") [.num (R ^ 2), .ref lx] st = .ok (.ref st.next) s1
      ∧ ((∃ vb vg' g k, call (mach (Arith.ieee p) ext) (fuel + 8) (.glob "cutting_plane_optim") [vo, .ref st.next, vg, vopt] s1 = .ok (.tuple [vb, vg', .int (k : ℕ)]) s2 ∧ isG g vg' ∧ γs ≤ g)
        ∨ ∃ fault, call (mach (Arith.ieee p) ext) (fuel + 8) (.glob "cutting_plane_optim") [vo, .ref st.next, vg, vopt] s1 = .exc (excOf fault) s2) := by
  obtain ⟨-, hb, hp2⟩ := bits_large hn hr (radius_le (by omega) hR hsub) ((nrm_nonneg c).trans hc) hp
  have hA := literals_ieee hp2
  have hup : (2⁻¹ : ℝ) ^ p * 2 ^ p = 1 := by rw [← mul_pow]; norm_num
  have hu0 : (0 : ℝ) < 2⁻¹ ^ p := by positivity
  obtain ⟨h, hh, -⟩ := Arith.core_facts (n := n) (Arith.ieee_accurate p n) hu0.le (by nlinarith) hn
  obtain ⟨e, he⟩ : ∃ e, (Arith.ieee p).ellInit (.scalar (R ^ 2)) x = .ok e := ⟨_, by unfold Arith.ellInit; rw [hh]; rfl⟩
  obtain ⟨s1, lm, h1, h2⟩ := ready_init hA (dimension_ieee (by nlinarith)) hQ.toOracleAt ho hopt hlt (ext := ext) (fuel := fuel) (.num (R ^ 2)) hx hltx hox he
  obtain ⟨s2, vb, vg', h3, -, h4⟩ := C98_optim hA hQ h2 hg
  refine ⟨s1, s2, h1, ?_⟩
  rcases hres : optim omega ((Arith.ieee p).space n) ltReal o e g0 opts with ⟨o', e', f | ⟨xb, g, k⟩⟩ <;> rw [hres] at h3 h4
  · exact .inr ⟨f, h3⟩
  · exact .inl ⟨vb, vg', g, k, h3, (h4 _ _ _ rfl).1, C106_optim_ieee hn hR hr hc hp hη hω hX hI hsub he hg0 opts htol hmax hres⟩

theorem _root_.Ellalgo.Spec.LmiRun.two_le {matF : Fin q → Mat m} {matB : Mat m} {x c : Vec q} {R r D μ w : ℝ} (H : LmiRun matF matB x c p R r D μ w opts) : 2 ≤ p :=
  (bits_large H.dim H.r_pos (radius_le (by have := H.dim; omega) H.R_pos H.inside) ((Real.sqrt_nonneg _).trans H.centre) H.bits).2.2

section lmi

variable {matF : Fin q → Mat m} {matB : Mat m} {x c : Vec q} {R r D μ w : ℝ}

/-- The text returns an array with a point `y` where `mat_b - Σ y_k mat_f[k] ≥ -14 m (m + q + 1) w 2^{-p} I`, within `(20/9) q (q + 1) ln(2R/r)` iterations. -/
def FindsFloat (matF : Fin q → Mat m) (matB : Mat m) (p : ℕ) (R r w : ℝ) (lx : ℕ) (res : Res W Val) : Prop :=
  ∃ s2 k y, res = .ok (.tuple [.ref lx, .int (k : ℕ)]) s2 ∧ s2.heap lx = some (.vec q y) ∧ (∀ v, -(14 * m * ((m : ℝ) + q + 1) * w / 2 ^ p * (v ⬝ᵥ v)) ≤ v ⬝ᵥ (lmiMat matF matB y *ᵥ v)) ∧ (k : ℝ) ≤ floatIters q R r

theorem lmi_float_source (H : LmiRun matF matB x c p R r D μ w opts) {assess : LDLTMgr ℝ → Vec q → LDLTMgr ℝ × Except Fault (Option (Vec q × ℝ))} {own : St W → ℕ → Prop} {Q : St W → LDLTMgr ℝ → Prop}
    (hans : ∀ γ, (Arith.ieee p).Accurate (2⁻¹ ^ p) γ m → 2⁻¹ ^ p ≤ γ → 10 * m * γ ≤ 1 → (1 + 2⁻¹ ^ p) ^ (q + 1) - 1 ≤ γ → ∀ o x, o.ndim = m → LmiAnswer matF matB x γ (assess o x))
    (hQ : FeasOracle (Arith.ieee p) ext (fuel + 7) vo own (fun o x => ((assess o x).1, (assess o x).2.map fun r => r.map fun c => (c.1, .scalar c.2))) Q) {st : St W} {o : LDLTMgr ℝ} (hI : o.ndim = m) (ho : Q st o)
    (hopt : OptionsAt (Arith.ieee p) st vopt opts) (hlt : ∀ k, vopt = .ref k → k < st.next) {lx : ℕ} (hx : st.heap lx = some (.vec q x)) (hltx : lx < st.next) (hox : ¬ own st lx) :
    ∃ s1, call (mach (Arith.ieee p) ext) (fuel + 3) (.glob "Ell") [.num (R ^ 2), .ref lx] st = .ok (.ref st.next) s1
      ∧ FindsFloat matF matB p R r w lx (call (mach (Arith.ieee p) ext) (fuel + 8) (.glob "cutting_plane_feas") [vo, .ref st.next, vopt] s1) := by
  obtain ⟨hL, hb, -⟩ := bits_large H.dim H.r_pos (radius_le (by have := H.dim; omega) H.R_pos H.inside) ((Real.sqrt_nonneg _).trans H.centre) H.bits
  have hup : (2⁻¹ : ℝ) ^ p * 2 ^ p = 1 := by rw [← mul_pow]; norm_num
  have hu0 : (0 : ℝ) < 2⁻¹ ^ p := by positivity
  have hinv : (2 ^ p : ℝ)⁻¹ = 2⁻¹ ^ p := by rw [inv_pow]
  have hrR := radius_le (show 0 < q by have := H.dim; omega) H.R_pos H.inside
  have hq0 : (0 : ℝ) ≤ q := Nat.cast_nonneg _
  have hm0 : (0 : ℝ) ≤ m := Nat.cast_nonneg _
  have hord : m * ((m : ℝ) + q + 1) * 2⁻¹ ^ p ≤ 1 / 260 := by
    have := mul_le_mul_of_nonneg_right H.order hu0.le
    rw [mul_comm ((2 : ℝ) ^ p), hup] at this
    linarith
  have hmar : 208 * (m * ((m : ℝ) + q + 1) * w * 2⁻¹ ^ p) ≤ μ := by
    have := mul_le_mul_of_nonneg_right H.margin hu0.le
    rw [mul_assoc μ, mul_comm ((2 : ℝ) ^ p), hup] at this
    linarith
  obtain ⟨γ, hγ⟩ : ∃ γ : ℝ, γ = 2 * ((m : ℝ) + q + 1) * 2⁻¹ ^ p := ⟨_, rfl⟩
  have hγ0 : 0 ≤ γ := by rw [hγ]; positivity
  have hmγ : m * γ ≤ 1 / 130 := by rw [hγ]; nlinarith
  have hw : 104 * m * γ * w ≤ μ := by rw [hγ]; nlinarith
  have hN : ((m + q : ℕ) : ℝ) + 1 = (m : ℝ) + q + 1 := by push_cast; ring
  have hsmall : (((m + q : ℕ) : ℝ) + 1) * 2⁻¹ ^ p ≤ 1 := by
    rw [hN]
    rcases Nat.eq_zero_or_pos m with h0 | h0
    · subst h0
      rw [Nat.cast_zero, zero_add]
      nlinarith
    · have h1 : (1 : ℝ) ≤ m := by exact_mod_cast h0
      have h2 : 0 ≤ ((m : ℝ) + q + 1) * 2⁻¹ ^ p := by positivity
      nlinarith
  have hle : ((1 : ℝ) + 2⁻¹ ^ p) ^ (m + q + 1) - 1 ≤ γ := by
    have := Arith.ieee_gamma_le hsmall
    rwa [hN, ← hγ] at this
  have hω := lmi_inner (hans γ ((Arith.ieee_accurate p (m + q)).mono (by omega) hle) ((Arith.ieee_le_gamma p (m + q)).trans hle) (by linarith)
    (le_trans (by
      have : ((1 : ℝ) + 2⁻¹ ^ p) ^ (q + 1) ≤ (1 + 2⁻¹ ^ p) ^ (m + q + 1) := pow_le_pow_right₀ (by linarith) (by omega)
      linarith) hle)) hγ0 H.r_pos H.margin_pos H.slack (by have := H.centre; unfold nrm; linarith) (by linarith) hw
  obtain ⟨s1, s2, k, y, h1, h2, h3, h4, h5⟩ := C107_feas (fuel := fuel) (ext := ext) (vo := vo) (vopt := vopt) (opts := opts) (p := p) H.dim H.R_pos H.r_pos H.centre H.bits (sq_nonneg _) hω le_rfl hQ hI ho hopt hlt hx hltx hox
    H.inside H.tol H.iters
  refine ⟨s1, h1, s2, k, y, h2, h3, fun v => ?_, h5⟩
  have h6 := h4 v
  rw [hγ] at h6
  rw [div_eq_mul_inv, hinv]
  linarith

/-- **C107.** `LMIOracle(mat_f, mat_b)`, `Ell(R ** 2, x)`, then `cutting_plane_feas` of the text, on machine numbers with `p` bits: if the ball of radius `R` contains one of radius `r` where the inequality holds with the margin `μ`, and
there are enough bits for it, a point is found where the inequality holds up to `14 m (m + q + 1) w 2^{-p}`. -/
theorem C107_lmi (H : LmiRun matF matB x c p R r D μ w opts) {lf : Fin q → ℕ} {lb : ℕ} (hF : ∀ k, (matF k).IsSymm) (hB : matB.IsSymm) {st : St W} (hm : MatsAt st lf matF (some (lb, matB)))
    (hopt : OptionsAt (Arith.ieee p) st vopt opts) (hlt : ∀ k, vopt = .ref k → k < st.next) {lx : ℕ} (hx : st.heap lx = some (.vec q x)) (hltx : lx < st.next) :
    ∃ s0 s1, call (mach (Arith.ieee p) ext) (fuel + 3) (.glob "LMIOracle") [.list (List.ofFn fun k => .ref (lf k)), .ref lb] st = .ok (.ref st.next) s0
      ∧ call (mach (Arith.ieee p) ext) (fuel + 3) (.glob "Ell") [.num (R ^ 2), .ref lx] s0 = .ok (.ref s0.next) s1
      ∧ FindsFloat matF matB p R r w lx (call (mach (Arith.ieee p) ext) (fuel + 8) (.glob "cutting_plane_feas") [.ref st.next, .ref s0.next, vopt] s1) := by
  obtain ⟨s0, lm, lw, ls, h1, h2, hw, hf⟩ := lmi_init (A := Arith.ieee p) (ext := ext) (fuel := fuel) hm
  have hQ := lmi_assess (fuel := fuel + 3) (ext := ext) (literals_ieee H.two_le) (D := ⟨"LMIOracle", st.next, lm, lw, ls, lf, matF, some (lb, matB)⟩) rfl rfl (W := W) (free := True)
  obtain ⟨s1, h3, h4⟩ := lmi_float_source (fuel := fuel) H (fun γ h1 h2 h3 h4 o x ho => C93_lmi hF hB o ho h1 (by positivity) h2 h3 h4 x) hQ h2.dim h2 (hopt.mono fun k _ hk _ => hf.same k (hlt k hk) not_false)
    (fun k hk => (hlt k hk).trans_le hf.next) ((hf.same lx hltx not_false).trans hx) (hltx.trans_le hf.next) (lmi_apart h2 hm hx hltx hw hf)
  exact ⟨s0, s1, h1, h3, h4⟩

/-- **C107.** The same for `LMIOldOracle`. -/
theorem C107_lmi_old (H : LmiRun matF matB x c p R r D μ w opts) {lf : Fin q → ℕ} {lb : ℕ} (hF : ∀ k, (matF k).IsSymm) (hB : matB.IsSymm) {st : St W} (hm : MatsAt st lf matF (some (lb, matB)))
    (hopt : OptionsAt (Arith.ieee p) st vopt opts) (hlt : ∀ k, vopt = .ref k → k < st.next) {lx : ℕ} (hx : st.heap lx = some (.vec q x)) (hltx : lx < st.next) :
    ∃ s0 s1, call (mach (Arith.ieee p) ext) (fuel + 3) (.glob "LMIOldOracle") [.list (List.ofFn fun k => .ref (lf k)), .ref lb] st = .ok (.ref st.next) s0
      ∧ call (mach (Arith.ieee p) ext) (fuel + 3) (.glob "Ell") [.num (R ^ 2), .ref lx] s0 = .ok (.ref s0.next) s1
      ∧ FindsFloat matF matB p R r w lx (call (mach (Arith.ieee p) ext) (fuel + 8) (.glob "cutting_plane_feas") [.ref st.next, .ref s0.next, vopt] s1) := by
  obtain ⟨s0, lm, lw, ls, h1, h2, hw, hf⟩ := lmiOld_init (A := Arith.ieee p) (ext := ext) (fuel := fuel) hm
  have hQ := lmiOld_assess (fuel := fuel + 3) (ext := ext) (literals_ieee H.two_le) (D := ⟨"LMIOldOracle", st.next, lm, lw, ls, lf, matF, some (lb, matB)⟩) rfl rfl (W := W) (free := True)
  obtain ⟨s1, h3, h4⟩ := lmi_float_source (fuel := fuel) H (fun γ h1 h2 h3 h4 o x ho => C93_lmi_old hF hB o ho h1 (by positivity) h2 h3 h4 x) hQ h2.dim h2 (hopt.mono fun k _ hk _ => hf.same k (hlt k hk) not_false)
    (fun k hk => (hlt k hk).trans_le hf.next) ((hf.same lx hltx not_false).trans hx) (hltx.trans_le hf.next) (lmi_apart h2 hm hx hltx hw hf)
  exact ⟨s0, s1, h1, h3, h4⟩

/-- **C107.** `LMI0Oracle(mat_f)`: the matrix is `Σ y_k mat_f[k]`. -/
theorem C107_lmi0 (H : LmiRun (fun k => -matF k) 0 x c p R r D μ w opts) {lf : Fin q → ℕ} (hF : ∀ k, (matF k).IsSymm) {st : St W} (hm : MatsAt st lf matF none)
    (hopt : OptionsAt (Arith.ieee p) st vopt opts) (hlt : ∀ k, vopt = .ref k → k < st.next) {lx : ℕ} (hx : st.heap lx = some (.vec q x)) (hltx : lx < st.next) :
    ∃ s0 s1, call (mach (Arith.ieee p) ext) (fuel + 3) (.glob "LMI0Oracle") [.list (List.ofFn fun k => .ref (lf k))] st = .ok (.ref st.next) s0
      ∧ call (mach (Arith.ieee p) ext) (fuel + 3) (.glob "Ell") [.num (R ^ 2), .ref lx] s0 = .ok (.ref s0.next) s1
      ∧ FindsFloat (fun k => -matF k) 0 p R r w lx (call (mach (Arith.ieee p) ext) (fuel + 8) (.glob "cutting_plane_feas") [.ref st.next, .ref s0.next, vopt] s1) := by
  obtain ⟨s0, h0⟩ := lmi0_init (A := Arith.ieee p) (ext := ext) (fuel := fuel) hm
  rw [LMI0Oracle.init, if_neg (by have := H.dim; omega)] at h0
  obtain ⟨h1, ⟨lm, lw, ls, h2, hw⟩, hf⟩ := h0
  have hQ := lmi0_assess (fuel := fuel + 3) (ext := ext) (literals_ieee H.two_le) (D := ⟨"LMI0Oracle", st.next, lm, lw, ls, lf, matF, none⟩) rfl (W := W) (free := True)
  obtain ⟨s1, h3, h4⟩ := lmi_float_source (fuel := fuel) H (fun γ h1 h2 h3 h4 o x ho => C93_lmi0 hF o ho h1 (by positivity) h2 h3 h4 x) hQ h2.dim h2 (hopt.mono fun k _ hk _ => hf.same k (hlt k hk) not_false)
    (fun k hk => (hlt k hk).trans_le hf.next) ((hf.same lx hltx not_false).trans hx) (hltx.trans_le hf.next) (lmi_apart h2 hm hx hltx hw hf)
  exact ⟨s0, s1, h1, h3, h4⟩

/-- Where the inequality holds strictly at one point of a ball, it holds with a margin on a ball inside. -/
theorem exists_slack (hq : 2 ≤ q) (hR : 0 < R) {y0 : Vec q} (hy0 : y0 ∈ ball x R) (hpos : QuadPos (lmiMat matF matB y0)) :
    ∃ (c : Vec q) (r μ : ℝ), 0 < r ∧ 0 < μ ∧ ball c r ⊆ ball x R ∧ ∀ z ∈ ball c r, ∀ v, μ * (v ⬝ᵥ v) ≤ v ⬝ᵥ (lmiMat matF matB z *ᵥ v) := by
  obtain ⟨μ, hμ, h1⟩ := exists_lower _ hpos
  obtain ⟨e, he⟩ := (C60_init_rejects (.scalar (R ^ 2)) x).2 hq
  obtain ⟨hw, hreg, -⟩ := init_ball hR he
  obtain ⟨Λ, hΛ, h2⟩ := exists_uniform_lower hw (M := lmiMat matF matB) (by
    refine continuous_matrix fun i j => ?_
    simp only [lmiMat, Matrix.sub_apply, Matrix.sum_apply, Matrix.smul_apply, smul_eq_mul]
    fun_prop)
  rw [hreg] at h2
  obtain ⟨t, ht⟩ : ∃ t, t = μ / (2 * (μ + Λ)) := ⟨_, rfl⟩
  have ht0 : 0 < t := by rw [ht]; positivity
  have ht1 : t * (2 * (μ + Λ)) = μ := by rw [ht]; field_simp
  have ht2 : t ≤ 1 / 2 := by nlinarith
  have hz : ∀ z ∈ ball ((1 - t) • y0 + t • x) (t * R), ∃ y ∈ ball x R, z = (1 - t) • y0 + t • y := fun z hz => by
    refine ⟨x + t⁻¹ • (z - ((1 - t) • y0 + t • x)), ?_, ?_⟩
    · simp only [ball, Set.mem_ofPred_eq] at hz ⊢
      rw [add_sub_cancel_left, smul_dotProduct, dotProduct_smul, smul_eq_mul, smul_eq_mul, ← mul_assoc]
      calc t⁻¹ * t⁻¹ * _ ≤ t⁻¹ * t⁻¹ * (t * R) ^ 2 := mul_le_mul_of_nonneg_left hz (by positivity)
        _ = R ^ 2 := by field_simp
    · rw [smul_add, smul_smul, mul_inv_cancel₀ ht0.ne', one_smul]; abel
  refine ⟨(1 - t) • y0 + t • x, t * R, μ / 2, by positivity, by positivity, fun z h => ?_, fun z h v => ?_⟩
  · obtain ⟨y, hy, rfl⟩ := hz z h
    have e1 : (1 - t) • y0 + t • y - x = (1 - t) • (y0 - x) + t • (y - x) := by
      rw [smul_sub, smul_sub, sub_smul, sub_smul, one_smul, one_smul]; abel
    have h3 : nrm ((1 - t) • y0 + t • y - x) ≤ R := by
      rw [e1]
      have h4 : ∀ (a : ℝ) (u : Vec q), 0 ≤ a → u ⬝ᵥ u ≤ R ^ 2 → nrm (a • u) ≤ a * R := fun a u ha hu => nrm_le_of_sq (by positivity) (by
        rw [smul_dotProduct, dotProduct_smul, smul_eq_mul, smul_eq_mul, ← mul_assoc, mul_pow, ← sq]
        exact mul_le_mul_of_nonneg_left hu (sq_nonneg a))
      have h5 := nrm_add_le ((1 - t) • (y0 - x)) (t • (y - x))
      have h6 := h4 (1 - t) (y0 - x) (by linarith) hy0
      have h7 := h4 t (y - x) ht0.le hy
      linarith
    have := pow_le_pow_left₀ (nrm_nonneg _) h3 2
    rw [nrm_sq] at this
    exact this
  · obtain ⟨y, hy, rfl⟩ := hz z h
    rw [lmiMat_affine matF matB y0 y t v]
    have h3 := mul_le_mul_of_nonneg_left (h1 v) (show 0 ≤ 1 - t by linarith)
    have h4 := mul_le_mul_of_nonneg_left (h2 y hy v) ht0.le
    have h5 : μ / 2 * (v ⬝ᵥ v) = (1 - t) * (μ * (v ⬝ᵥ v)) + t * (-Λ * (v ⬝ᵥ v)) := by
      have : μ / 2 = (1 - t) * μ - t * Λ := by linarith
      rw [this]; ring
    linarith

theorem absQuad_le_sum (M : Mat m) (v : Vec m) : absQuad M v ≤ (∑ i, ∑ j, |M i j|) * (v ⬝ᵥ v) := by
  unfold absQuad
  rw [sum_mul]
  refine sum_le_sum fun i _ => ?_
  rw [sum_mul]
  refine sum_le_sum fun j _ => ?_
  have h1 : |v i| * |v j| ≤ v ⬝ᵥ v := by
    rw [← nrm_sq, sq]
    exact mul_le_mul (abs_le_nrm v i) (abs_le_nrm v j) (abs_nonneg _) (nrm_nonneg _)
  calc |v i| * |M i j| * |v j| = |M i j| * (|v i| * |v j|) := by ring
    _ ≤ _ := mul_le_mul_of_nonneg_left h1 (abs_nonneg _)

/-- For every inequality that holds strictly at some point of the ball there are constants with which the run has enough of everything. -/
theorem exists_run (hq : 2 ≤ q) (hR : 0 < R) {y0 : Vec q} (hy0 : y0 ∈ ball x R) (hpos : QuadPos (lmiMat matF matB y0)) {δ : ℝ} (hδ : 0 < δ) :
    ∃ (p0 N : ℕ) (tol : ℝ) (c : Vec q) (r D μ w : ℝ), 0 < tol ∧ floatIters q R r ≤ N ∧ ∀ p ≥ p0, 14 * m * ((m : ℝ) + q + 1) * w / 2 ^ p ≤ δ ∧
      ∀ opts : Options ℝ, N < opts.maxIters → opts.tolerance ≤ tol → LmiRun matF matB x c p R r D μ w opts := by
  obtain ⟨c, r, μ, hr, hμ, hsub, hsl⟩ := exists_slack hq hR hy0 hpos
  obtain ⟨X, hX⟩ : ∃ X, X = nrm c + floatAxes q R r := ⟨_, rfl⟩
  obtain ⟨w, hw⟩ : ∃ w, w = (∑ i, ∑ j, |matB i j|) + 3 * X * ∑ k, ∑ i, ∑ j, |matF k i j| := ⟨_, rfl⟩
  have hL : 0 < floatAxes q R r := by unfold floatAxes; positivity
  have hX0 : 0 < X := by rw [hX]; linarith [nrm_nonneg c]
  obtain ⟨N, hN⟩ := exists_nat_ge (floatIters q R r)
  obtain ⟨B, hB⟩ : ∃ B : ℝ, B = max (max (24000 * ((q : ℝ) + 1) ^ 4 * (floatIters q R r + 1) * ((floatAxes q R r + nrm c) / r) ^ 4) (260 * m * ((m : ℝ) + q + 1)))
    (max (208 * m * ((m : ℝ) + q + 1) * w / μ) (14 * m * ((m : ℝ) + q + 1) * w / δ)) := ⟨_, rfl⟩
  obtain ⟨p0, hp0⟩ := pow_unbounded_of_one_lt B (show (1 : ℝ) < 2 by norm_num)
  refine ⟨p0, N, r ^ 2 * (μ / (4 * X)) ^ 2 / 8, c, r, nrm c, μ, w, by positivity, hN, fun p hp => ?_⟩
  have hp1 : B ≤ 2 ^ p := hp0.le.trans (pow_le_pow_right₀ (by norm_num) hp)
  rw [hB, max_le_iff, max_le_iff, max_le_iff] at hp1
  obtain ⟨⟨b1, b2⟩, b3, b4⟩ := hp1
  rw [div_le_iff₀ hμ] at b3
  rw [div_le_iff₀ hδ] at b4
  refine ⟨by rw [div_le_iff₀ (by positivity)]; linarith, fun opts hm ht => ⟨hq, hr, hR, hμ, le_rfl, hsub, ⟨hsl, fun v => ?_⟩, b1, b2, by linarith, ?_, ?_⟩⟩
  · rw [← hX, hw, add_mul]
    refine add_le_add (absQuad_le_sum _ _) ?_
    rw [mul_assoc (3 * X)]
    refine mul_le_mul_of_nonneg_left ?_ (by positivity)
    rw [sum_mul]
    exact sum_le_sum fun k _ => absQuad_le_sum _ _
  · rw [← hX]; linarith
  · exact hN.trans_lt (by exact_mod_cast hm)

/-- **C107, without constants.** If the ball contains a point at which the linear matrix inequality holds strictly, then for every `δ > 0` there are a number of bits, an iteration limit and a tolerance such that with at least as many
bits the run of the text returns a point at which the inequality holds up to `δ`. -/
theorem C107_lmi_finds (hq : 2 ≤ q) (hF : ∀ k, (matF k).IsSymm) (hB : matB.IsSymm) (hR : 0 < R) {y0 : Vec q} (hy0 : y0 ∈ ball x R) (hpos : QuadPos (lmiMat matF matB y0)) {δ : ℝ} (hδ : 0 < δ) :
    ∃ (p0 N : ℕ) (tol : ℝ), 0 < tol ∧ ∀ p ≥ p0, ∀ (W : Type) (ext : ℕ → String → List Val → M W Val) (fuel : ℕ) (st : St W) (lf : Fin q → ℕ) (lb lx : ℕ) (vopt : Val) (opts : Options ℝ),
      MatsAt st lf matF (some (lb, matB)) → st.heap lx = some (.vec q x) → lx < st.next → OptionsAt (Arith.ieee p) st vopt opts → (∀ k, vopt = .ref k → k < st.next) → N < opts.maxIters → opts.tolerance ≤ tol →
      ∃ s0 s1 s2 k y, call (mach (Arith.ieee p) ext) (fuel + 3) (.glob "LMIOracle") [.list (List.ofFn fun k => .ref (lf k)), .ref lb] st = .ok (.ref st.next) s0
        ∧ call (mach (Arith.ieee p) ext) (fuel + 3) (.glob "Ell") [.num (R ^ 2), .ref lx] s0 = .ok (.ref s0.next) s1
        ∧ call (mach (Arith.ieee p) ext) (fuel + 8) (.glob "cutting_plane_feas") [.ref st.next, .ref s0.next, vopt] s1 = .ok (.tuple [.ref lx, .int (k : ℕ)]) s2
        ∧ s2.heap lx = some (.vec q y) ∧ (∀ v, -(δ * (v ⬝ᵥ v)) ≤ v ⬝ᵥ (lmiMat matF matB y *ᵥ v)) ∧ k ≤ N := by
  obtain ⟨p0, N, tol, c, r, D, μ, w, h1, h2, h3⟩ := exists_run hq hR hy0 hpos hδ
  refine ⟨p0, N, tol, h1, fun p hp W ext fuel st lf lb lx vopt opts hm hx hltx hopt hlt hmax htol => ?_⟩
  obtain ⟨h4, h5⟩ := h3 p hp
  obtain ⟨s0, s1, g1, g2, s2, k, y, g3, g4, g5, g6⟩ := C107_lmi (ext := ext) (fuel := fuel) (h5 opts hmax htol) hF hB hm hopt hlt hx hltx
  refine ⟨s0, s1, s2, k, y, g1, g2, g3, g4, fun v => ?_, by exact_mod_cast g6.trans h2⟩
  have h6 := mul_le_mul_of_nonneg_right h4 (dot_self_nonneg' v)
  linarith [g5 v]

end lmi

/-! ### The hypotheses can be met -/

/-- `F0`, `F1`, `B`, a point, `Options()`: the inequality `[[y₀, -y₁], [-y₁, 1]] ⪰ 0`. -/
noncomputable def diskHeap : St Unit := ⟨fun k => if k = 0 then some (.mat 2 2 ![![-1, 0], ![0, 0]]) else if k = 1 then some (.mat 2 2 ![![0, 1], ![1, 0]]) else if k = 2 then some (.mat 2 2 ![![0, 0], ![0, 1]])
  else if k = 3 then some (.vec 2 ![0, 0]) else if k = 4 then some (.inst "Options" Env.empty) else none, 5, ()⟩

noncomputable def diskB : Mat 2 := !![0, 0; 0, 1]

theorem diskHeap_at : MatsAt diskHeap (fun k : Fin 2 => (k : ℕ)) lmiHeapF (some (2, diskB)) where
  F k := by rw [square_toArr2]; fin_cases k <;> rfl
  B p hp := by cases hp; rw [square_toArr2]; rfl
  ltF k := by have := k.2; simp only [diskHeap]; omega
  ltB p hp := by cases hp; decide

theorem diskHeap_options : OptionsAt (Arith.ieee 53) diskHeap (.ref 4) ⟨2000, (Arith.ieee 53).rnd (1 / 10 ^ 20)⟩ := ⟨4, Env.empty, rfl, rfl, .inr ⟨rfl, rfl⟩, .inr ⟨rfl, by simp [literal]⟩⟩

theorem diskHeap_quad (y : Vec 2) (v : Fin 2 → ℝ) : v ⬝ᵥ (lmiMat lmiHeapF diskB y *ᵥ v) = y 0 * (v 0 * v 0) - 2 * y 1 * (v 0 * v 1) + v 1 * v 1 := by
  rw [quad_lmi]
  simp [lmiHeapF, diskB, dotProduct, mulVec, Fin.sum_univ_two]; ring

/-- Numbers: the plane, `R = 1`, `r = 9/20`. -/
theorem disk_numbers : floatIters 2 1 (9 / 20) ≤ 20 ∧ floatAxes 2 1 (9 / 20) ≤ 50 := by
  have hT : floatIters 2 1 (9 / 20) ≤ 1997 / 100 := by
    unfold floatIters
    have h1 : Real.log (2 * 1 / (9 / 20)) = 2 * Real.log 2 + Real.log (10 / 9) := by
      rw [show (2 : ℝ) * 1 / (9 / 20) = 2 ^ 2 * (10 / 9) by norm_num, Real.log_mul (by norm_num) (by norm_num), Real.log_pow]; norm_num
    have h2 := Real.log_two_lt_d9
    have h3 := Real.log_le_sub_one_of_pos (x := 10 / 9) (by norm_num)
    rw [h1]
    push_cast
    linarith
  refine ⟨by linarith, ?_⟩
  unfold floatAxes
  have h1 : Real.exp (5 * (floatIters 2 1 (9 / 20) + 1) / (9 * (((2 : ℕ) : ℝ) ^ 2 - 1))) ≤ Real.exp (39 / 10) := by
    refine Real.exp_le_exp.mpr ?_
    rw [div_le_iff₀ (by norm_num)]
    push_cast
    linarith
  have h2 : Real.exp (39 / 10) ≤ 50 := by
    refine le_of_pow_le_pow_left₀ (n := 10) (by norm_num) (by norm_num) ?_
    have h3 : Real.exp (39 / 10) ^ 10 = Real.exp 1 ^ 39 := by rw [← Real.exp_nat_mul, ← Real.exp_nat_mul]; norm_num
    rw [h3]
    refine (pow_le_pow_left₀ (Real.exp_pos _).le Real.exp_one_lt_d9.le 39).trans (by norm_num)
  linarith

theorem disk_slack : LmiRun lmiHeapF diskB ![0, 0] ![11 / 20, 0] 53 1 (9 / 20) (11 / 20) (1 / 20) 304 ⟨2000, (Arith.ieee 53).rnd (1 / 10 ^ 20)⟩ := by
  obtain ⟨hT, hL⟩ := disk_numbers
  have hT0 : 0 ≤ floatIters 2 1 (9 / 20) := floatIters_nonneg (by norm_num) (by norm_num)
  have hL0 : 0 < floatAxes 2 1 (9 / 20) := by unfold floatAxes; positivity
  refine ⟨le_rfl, by norm_num, by norm_num, by norm_num, ?_, fun z hz => ?_, ⟨fun z hz v => ?_, fun v => ?_⟩, ?_, by norm_num, by norm_num, ?_, by push_cast; linarith⟩
  · rw [Real.sqrt_le_iff]
    simp [dotProduct, Fin.sum_univ_two]
    norm_num
  · simp [ball, dotProduct, Fin.sum_univ_two] at hz ⊢
    nlinarith [sq_nonneg (z 1), sq_nonneg (z 0 - 1)]
  · simp [ball, dotProduct, Fin.sum_univ_two] at hz
    rw [diskHeap_quad]
    simp only [dotProduct, Fin.sum_univ_two]
    have a0 : 1 / 10 ≤ z 0 := by nlinarith [mul_self_nonneg (z 1)]
    have a1 : z 0 ≤ 1 := by nlinarith [mul_self_nonneg (z 1)]
    have a2 : z 1 * z 1 ≤ z 0 - 1 / 10 := by nlinarith
    nlinarith [mul_self_nonneg (20 * z 1 * v 0 - 19 * v 1), mul_self_nonneg (v 0), mul_self_nonneg (v 1), mul_nonneg (sub_nonneg.mpr a2) (mul_self_nonneg (v 0)), mul_nonneg (sub_nonneg.mpr a0) (mul_self_nonneg (v 0))]
  · have e1 : absQuad diskB v = v 1 * v 1 := by simp [absQuad, diskB, Fin.sum_univ_two]
    have e2 : ∑ k, absQuad (lmiHeapF k) v = v 0 * v 0 + 2 * (|v 0| * |v 1|) := by simp [absQuad, lmiHeapF, Fin.sum_univ_two]; ring
    rw [e1, e2]
    simp only [dotProduct, Fin.sum_univ_two]
    have h1 : 2 * (|v 0| * |v 1|) ≤ v 0 * v 0 + v 1 * v 1 := by
      have := mul_self_nonneg (|v 0| - |v 1|)
      have h2 := abs_mul_abs_self (v 0)
      have h3 := abs_mul_abs_self (v 1)
      nlinarith
    have h2 : 0 ≤ v 0 * v 0 + 2 * (|v 0| * |v 1|) := add_nonneg (mul_self_nonneg _) (by positivity)
    have h3 : 3 * (11 / 20 + floatAxes 2 1 (9 / 20)) ≤ 152 := by linarith
    nlinarith [mul_self_nonneg (v 0), mul_self_nonneg (v 1)]
  · have h1 : ((floatAxes 2 1 (9 / 20) + 11 / 20) / (9 / 20)) ^ 4 ≤ ((50 + 11 / 20) / (9 / 20)) ^ 4 := by gcongr
    calc _ ≤ 24000 * (((2 : ℕ) : ℝ) + 1) ^ 4 * (20 + 1) * ((50 + 11 / 20) / (9 / 20)) ^ 4 := by gcongr
      _ ≤ _ := by norm_num
  · have h1 : (Arith.ieee 53).rnd (1 / 10 ^ 20) ≤ 2 / 10 ^ 20 := by
      have := (abs_le.mp ((Arith.ieee_accurate 53 2).rnd (1 / 10 ^ 20))).2
      rw [abs_of_pos (by positivity)] at this
      norm_num at this ⊢
      linarith
    have h2 : 1 / 20 / (4 * (11 / 20 + 50)) ≤ 1 / 20 / (4 * (11 / 20 + floatAxes 2 1 (9 / 20))) := by gcongr
    have h3 := pow_le_pow_left₀ (by norm_num) h2 2
    show 8 * (Arith.ieee 53).rnd (1 / 10 ^ 20) ≤ _
    norm_num at h1 h3 ⊢
    linarith

/-- In doubles, with the text of the files, `cutting_plane_feas(LMIOracle([F0, F1], B), Ell(1, x), Options())` finds a point with `[[y₀, -y₁], [-y₁, 1]] ≥ -10⁻¹⁰ I` in the unit disc, within 20 iterations. The centre of the disc, where the matrix
is singular, is rejected. -/
example : ∃ (s0 s1 s2 : St Unit) (k : ℕ) (y : Vec 2), call (mach (Arith.ieee 53) fun _ _ _ => M.exc "TypeError") 3 (.glob "LMIOracle") [.list [.ref 0, .ref 1], .ref 2] diskHeap = .ok (.ref 5) s0
    ∧ call (mach (Arith.ieee 53) fun _ _ _ => M.exc "TypeError") 3 (.glob "Ell") [.num (1 ^ 2), .ref 3] s0 = .ok (.ref s0.next) s1
    ∧ call (mach (Arith.ieee 53) fun _ _ _ => M.exc "TypeError") 8 (.glob "cutting_plane_feas") [.ref 5, .ref s0.next, .ref 4] s1 = .ok (.tuple [.ref 3, .int k]) s2
    ∧ s2.heap 3 = some (.vec 2 y) ∧ (∀ v, -(1 / 10 ^ 10 * (v ⬝ᵥ v)) ≤ v ⬝ᵥ (lmiMat lmiHeapF diskB y *ᵥ v)) ∧ k ≤ 20 := by
  obtain ⟨s0, s1, h1, h2, s2, k, y, h3, h4, h5, h6⟩ := C107_lmi (ext := fun _ _ _ => M.exc "TypeError") (fuel := 0) disk_slack lmiHeap_symm.1 (by ext i j; fin_cases i <;> fin_cases j <;> rfl) diskHeap_at diskHeap_options
    (by rintro k ⟨⟩; decide) (lx := 3) rfl (by decide)
  refine ⟨s0, s1, s2, k, y, h1, h2, h3, h4, fun v => ?_, by exact_mod_cast h6.trans disk_numbers.1⟩
  have := h5 v
  have h7 : (14 : ℝ) * (2 : ℕ) * (((2 : ℕ) : ℝ) + (2 : ℕ) + 1) * 304 / 2 ^ 53 ≤ 1 / 10 ^ 10 := by norm_num
  nlinarith [dot_self_nonneg' v]

/-- The hypotheses of `C107_lmi_old` and `C107_lmi0` in doubles, the second for `[[y₀, y₁/4], [y₁/4, y₀]] ⪰ 0`. -/
example : (∃ s0 s1 : St Unit, FindsFloat lmiHeapF diskB 53 1 (9 / 20) 304 3 (call (mach (Arith.ieee 53) fun _ _ _ => M.exc "TypeError") 8 (.glob "cutting_plane_feas") [.ref 5, .ref s0.next, .ref 4] s1))
    ∧ LmiRun (fun k => -(![1, !![0, 1 / 4; 1 / 4, 0]] : Fin 2 → Mat 2) k) 0 ![0, 0] ![11 / 20, 0] 53 1 (9 / 20) (11 / 20) (1 / 20) 304 ⟨2000, (Arith.ieee 53).rnd (1 / 10 ^ 20)⟩ := by
  constructor
  · obtain ⟨s0, s1, -, -, h⟩ := C107_lmi_old (ext := fun _ _ _ => M.exc "TypeError") (fuel := 0) disk_slack lmiHeap_symm.1 (by ext i j; fin_cases i <;> fin_cases j <;> rfl) diskHeap_at diskHeap_options
      (by rintro k ⟨⟩; decide) (lx := 3) rfl (by decide)
    exact ⟨s0, s1, h⟩
  · have H := disk_slack
    refine ⟨H.dim, H.r_pos, H.R_pos, H.margin_pos, H.centre, H.inside, ⟨fun z hz v => ?_, fun v => ?_⟩, H.bits, H.order, H.margin, H.tol, H.iters⟩
    · simp [ball, dotProduct, Fin.sum_univ_two] at hz
      have e : v ⬝ᵥ (lmiMat (fun k => -(![1, !![0, 1 / 4; 1 / 4, 0]] : Fin 2 → Mat 2) k) 0 z *ᵥ v) = z 0 * (v 0 * v 0 + v 1 * v 1) + z 1 / 2 * (v 0 * v 1) := by
        rw [quad_lmi]
        simp [dotProduct, mulVec, Fin.sum_univ_two]; ring
      rw [e]
      simp only [dotProduct, Fin.sum_univ_two]
      have a0 : 1 / 10 ≤ z 0 := by nlinarith [mul_self_nonneg (z 1)]
      have a1 : z 1 / 4 ≤ z 0 - 1 / 20 := by nlinarith [sq_nonneg (z 0 - 1 / 10), sq_nonneg (z 1 - 1 / 10)]
      have a2 : -(z 1 / 4) ≤ z 0 - 1 / 20 := by nlinarith [sq_nonneg (z 0 - 1 / 10), sq_nonneg (z 1 + 1 / 10)]
      nlinarith [mul_nonneg (sub_nonneg.mpr a1) (mul_self_nonneg (v 0 - v 1)), mul_nonneg (sub_nonneg.mpr a2) (mul_self_nonneg (v 0 + v 1))]
    · have e1 : absQuad (0 : Mat 2) v = 0 := by simp [absQuad]
      have e2 : ∑ k, absQuad (-(![1, !![0, 1 / 4; 1 / 4, 0]] : Fin 2 → Mat 2) k) v = v 0 * v 0 + v 1 * v 1 + (|v 0| * |v 1|) / 2 := by
        simp [absQuad, Fin.sum_univ_two, Matrix.one_apply]; ring
      rw [e1, e2]
      simp only [dotProduct, Fin.sum_univ_two]
      have h1 : 2 * (|v 0| * |v 1|) ≤ v 0 * v 0 + v 1 * v 1 := by
        have := mul_self_nonneg (|v 0| - |v 1|)
        have h2 := abs_mul_abs_self (v 0)
        have h3 := abs_mul_abs_self (v 1)
        nlinarith
      have h0 : 0 ≤ |v 0| * |v 1| := by positivity
      have h2 : 3 * (11 / 20 + floatAxes 2 1 (9 / 20)) ≤ 152 := by linarith [disk_numbers.2]
      have h3 := mul_le_mul_of_nonneg_right h2 (show 0 ≤ v 0 * v 0 + v 1 * v 1 + (|v 0| * |v 1|) / 2 by nlinarith [mul_self_nonneg (v 0), mul_self_nonneg (v 1)])
      nlinarith [mul_self_nonneg (v 0), mul_self_nonneg (v 1)]

/-- The hypothesis of `C107_lmi_finds`: a point of the unit disc where the inequality holds strictly. -/
example : (![1 / 2, 0] : Vec 2) ∈ ball (![0, 0] : Vec 2) 1 ∧ QuadPos (lmiMat lmiHeapF diskB ![1 / 2, 0]) := by
  refine ⟨by norm_num [ball, dotProduct, Fin.sum_univ_two], fun v hv => ?_⟩
  rw [diskHeap_quad]
  have h1 : 0 < v ⬝ᵥ v := dot_self_pos hv
  simp only [dotProduct, Fin.sum_univ_two] at h1
  norm_num
  nlinarith [mul_self_nonneg (v 1)]

/-- In doubles, with a user's oracles: the hypotheses of `C107_feas` (a disc of radius 1/2) and of `C107_optim` (the distance to a point, target 1/4 for its square), and what follows. -/
example : (∃ (s1 s2 : St Unit) (k : ℕ) (y : Vec 2), call (mach (Arith.ieee 53) (discExt ![1 / 2, 0] (1 / 2))) 8 (.glob "cutting_plane_feas") [.ref 0, .ref 3, .ref 2] s1 = .ok (.tuple [.ref 1, .int k]) s2
      ∧ s2.heap 1 = some (.vec 2 y) ∧ y ∈ ball (![1 / 2, 0] : Vec 2) (1 / 2))
    ∧ InnerLevelOracle (fun _ => True) (-(1 / 4) : ℝ) (![1 / 2, 0] : Vec 2) (1 / 2) 1 (1 / 2 + floatAxes 2 1 (1 / 2)) (distOracle ![1 / 2, 0])
    ∧ OptimOracle (Arith.ieee 53) (userExt (G := ℝ) .num (fun v => v.toReal.getD 0) (ballOracle ![1 / 2, 0] (1 / 2)) (fun o _ => o) (distOracle (![1 / 2, 0] : Vec 2)) (fun o x _ _ => (o, .ok ⟨(x, .scalar 0), x, none, false⟩))) 7 (.ref 0)
        (fun _ => (· = 0)) (distOracle ![1 / 2, 0]) (fun g v => v = .num g) (UserAt 0) := by
  have htol : 8 * (Arith.ieee 53).rnd (1 / 10 ^ 20) ≤ (1 / 2) ^ 2 * 1 := by
    have := (abs_le.mp ((Arith.ieee_accurate 53 2).rnd (1 / 10 ^ 20))).2
    rw [abs_of_pos (by positivity)] at this
    norm_num at this ⊢
    linarith
  refine ⟨?_, RegularLevelOracle.inner (L := fun γ => {y | γ ≤ -((y - ![1 / 2, 0]) ⬝ᵥ (y - ![1 / 2, 0]))}) (fun a b h y hy => le_trans h hy) (distOracle_regular (n := 1) _) ?_ _ (fun y hy => ?_), user_optim (fun g => rfl) (fun g => rfl)⟩
  · obtain ⟨s1, s2, k, y, -, h2, h3, h4, -⟩ := C107_feas (n := 2) (p := 53) (fuel := 0) (ext := discExt ![1 / 2, 0] (1 / 2)) (vo := .ref 0) (vopt := .ref 2) (own := fun _ => (· = 0)) (Q := UserAt 0)
      (opts := ⟨2000, (Arith.ieee 53).rnd (1 / 10 ^ 20)⟩) le_rfl one_pos (by norm_num : (0 : ℝ) < 1 / 2) half_disc.2 (double_bits (by norm_num) le_rfl).2 zero_le_one
      (RegularOracle.inner (ballOracle_regular (![1 / 2, 0] : Vec 2) (r := 1 / 2) (by norm_num)) (fun o x o' cut _ h1 => by
        unfold ballOracle at h1
        split_ifs at h1
        · simp at h1
        · simp only [Prod.mk.injEq, Except.ok.injEq, Option.some.injEq, true_and] at h1
          exact ⟨0, by rw [← h1]⟩) _ subset_rfl) le_rfl (user_feas ..) (st := exampleHeap) (o := ()) trivial ⟨by decide, rfl, rfl⟩
      ⟨2, Env.empty, rfl, rfl, .inr ⟨rfl, rfl⟩, .inr ⟨rfl, by simp [literal]⟩⟩ (by rintro k ⟨⟩; decide) (lx := 1) (x := ![0, 0]) rfl (by decide) (by decide) half_disc.1 htol (double_bits (D := 0) le_rfl (by norm_num)).1
    exact ⟨s1, s2, k, y, h2, h3, h4⟩
  · intro o x γ o' cut γ1 _ h
    unfold distOracle at h
    split_ifs at h <;> simp only [Prod.mk.injEq, Except.ok.injEq] at h <;> exact ⟨0, by rw [← h.2.1]⟩
  · have h1 : (y - ![1 / 2, 0]) ⬝ᵥ (y - ![1 / 2, 0]) ≤ (1 / 2) ^ 2 := hy
    show -(1 / 4) ≤ -((y - ![1 / 2, 0]) ⬝ᵥ (y - ![1 / 2, 0]))
    linarith

end Py

end Ellalgo
