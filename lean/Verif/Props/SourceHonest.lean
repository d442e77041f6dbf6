import Verif.Spec.RoundedHonest
import Verif.Props.RoundedLowpassDesign
import Verif.Props.StableBSearch

/-!
# C123: what the loops return on machine numbers can be relied on, with either search space

Linear matrix inequalities and filter design, from the text, with numbers of `p` bits, on `Ell` or on `EllStable`. Nothing is assumed about the first ellipsoid, its centre, the options or the existence of a solution. Whatever the search space does with its own rounding errors,
a point that comes back meets the constraints up to the errors of one evaluation of the oracle.
-/

namespace Ellalgo

open Finset Matrix Spec CuttingPlane

section

variable {O X S C T : Type*}

/-- A point that `cutting_plane_feas` returns satisfies what the oracle's acceptance implies. -/
theorem feas_accepts {omega : OracleFeas O X C} {sp : SearchSpace S X C T} {lt : T → T → Bool} {I : O → Prop} {good : X → Prop} (hI : ∀ o x, I o → I (omega o x).1) (hG : ∀ o x o', I o → omega o x = (o', .ok none) → good x)
    {o : O} (ho : I o) (s : S) (opts : Options T) {y : X} {k : ℕ} (h : (feas omega sp lt o s opts).2.2 = .ok (some y, k)) : good y ∧ k < opts.maxIters := by
  rcases hr : feas omega sp lt o s opts with ⟨o', s', r⟩
  rw [hr] at h
  obtain rfl : r = _ := h
  obtain ⟨-, hk, l, o1, ht, -, ha⟩ := C20_feas_returns_accepted omega sp lt o s opts o' s' y k hr
  refine ⟨hG o1 y o' ?_ ha, hk⟩
  clear ha hr hk
  induction ht with
  | start => exact ho
  | @step l o1 s1 o2 s2 cut t a b c ih => have := hI o1 (sp.xc s1) ih; rw [a] at this; exact this

end

/-- The constructors of the two search spaces return in arithmetic with at least four bits, from dimension 2 on. -/
theorem spaces_init {n p : ℕ} (hn : 2 ≤ n) (hp : 4 ≤ p) (val : InitVal n) (x : Vec n) : (∃ e, (Arith.ieee p).ellInit val x = .ok e) ∧ ∃ e, (Arith.ieee p).stableInit val x = .ok e := by
  have hu : (2⁻¹ : ℝ) ^ p ≤ 2⁻¹ ^ 4 := pow_le_pow_of_le_one (by norm_num) (by norm_num) hp
  have hu0 : (0 : ℝ) ≤ 2⁻¹ ^ p := by positivity
  obtain ⟨h, hh, -⟩ := Arith.core_facts (n := n) (Arith.ieee_accurate p n) hu0 (by norm_num at hu ⊢; linarith) hn
  refine ⟨?_, ?_⟩
  · unfold Arith.ellInit
    rw [hh]
    cases val <;> exact ⟨_, rfl⟩
  · unfold Arith.stableInit
    rw [hh]
    cases val <;> exact ⟨_, rfl⟩

theorem four_le_bits {p : ℕ} {z : ℝ} (hz : 16 ≤ z) (h : z ≤ 2 ^ p) : 4 ≤ p := by
  by_contra hp
  have : (2 : ℝ) ^ p ≤ 2 ^ 3 := pow_le_pow_right₀ one_le_two (by omega)
  norm_num at this
  linarith

namespace Py

variable {W O : Type} {n m q p : ℕ}

/-- What a run of `cutting_plane_feas` with the centre in the array at `lx` may give: an exception, `(None, k)`, or `(lx, k)` with a good point in this array. -/
def HonestFeas (lx maxIters : ℕ) (good : Vec n → Prop) (res : Res W Val) : Prop :=
  (∃ f s2, res = .exc f s2) ∨ (∃ s2 k, res = .ok (.tuple [.none, .int (k : ℕ)]) s2) ∨
  ∃ s2 y k, res = .ok (.tuple [.ref lx, .int (k : ℕ)]) s2 ∧ s2.heap lx = some (.vec n y) ∧ good y ∧ k < maxIters

/-- What a run of `cutting_plane_optim` from the value `g0` may give: an exception, `(None, g0, k)`, or a new array with a point and a value that suit each other. -/
def HonestBest (lx : ℕ) (g0 : ℝ) (good : Vec n → ℝ → Prop) (res : Res W Val) : Prop :=
  (∃ f s2, res = .exc f s2) ∨ (∃ s2 vg k, res = .ok (.tuple [.none, vg, .int (k : ℕ)]) s2 ∧ vg.toReal = some g0) ∨
  ∃ s2 lb y vg γ k, res = .ok (.tuple [.ref lb, vg, .int (k : ℕ)]) s2 ∧ lb ≠ lx ∧ s2.heap lb = some (.vec n y) ∧ vg.toReal = some γ ∧ good y γ

section

variable {A : Arith} {own : St W → ℕ → Prop} {Q : St W → O → Prop} {vo vopt : Val} {opts : Options ℝ} {ext : ℕ → String → List Val → M W Val} {fuel : ℕ} {cl : String}

/-- From an oracle in the heap to the run, with either search space. -/
theorem honest_source (hA : Literals A) (hn : A.rnd n = n) {omega : OracleFeas O (Vec n) (Cut n)} (hQ : ∀ free : Prop, FeasOracle A ext (fuel + 7) vo own omega Q free) {I : O → Prop} {good : Vec n → Prop}
    (hI : ∀ o x, I o → I (omega o x).1) (hG : ∀ o x o', I o → omega o x = (o', .ok none) → good x) {st : St W} {o : O} (ho : Q st o) (hio : I o) (hopt : OptionsAt A st vopt opts) (hlt : ∀ k, vopt = .ref k → k < st.next)
    {val : InitVal n} {w : Val} (hv : IsInit A st val w) {lx : ℕ} {x : Vec n} (hx : st.heap lx = some (.vec n x)) (hltx : lx < st.next) (hox : ¬ own st lx) (he : ∃ e, A.ellInit val x = .ok e) (hs : ∃ e, A.stableInit val x = .ok e)
    (hc : cl = "Ell" ∨ cl = "EllStable") :
    ∃ s1, call (mach A ext) (fuel + 3) (.glob cl) [w, .ref lx] st = .ok (.ref st.next) s1 ∧
      HonestFeas lx opts.maxIters good (call (mach A ext) (fuel + 8) (.glob "cutting_plane_feas") [vo, .ref st.next, vopt] s1) := by
  rcases hc with rfl | rfl
  · obtain ⟨e, he⟩ := he
    obtain ⟨s1, lm, h3, h4⟩ := ready_init (ext := ext) (fuel := fuel) hA hn (hQ True).toOracleAt ho hopt hlt hv hx hltx hox he
    obtain ⟨s2, h5, -, h7⟩ := C98_feas hA (hQ True) h4
    refine ⟨s1, h3, ?_⟩
    rcases hr : (feas omega (A.space n) ltReal o e opts).2.2 with f | ⟨_ | y, k⟩ <;> rw [hr] at h5 h7 <;> dsimp only at h5
    · exact .inl ⟨_, s2, h5⟩
    · exact .inr (.inl ⟨s2, k, h5⟩)
    · obtain ⟨h8, h9⟩ := feas_accepts hI hG hio e opts hr
      exact .inr (.inr ⟨s2, y, k, h5, h7 y k rfl, h8, h9⟩)
  · obtain ⟨e, he⟩ := hs
    obtain ⟨s1, lm, h3, h4⟩ := stableReady_init (ext := ext) (fuel := fuel) hA hn (hQ False).toOracleAt ho hopt hlt hv hx hltx hox he
    obtain ⟨s2, h5, -, h7⟩ := C101_feas hA (hQ False) h4
    refine ⟨s1, h3, ?_⟩
    rcases hr : (feas omega (A.stableSpace n) ltReal o e opts).2.2 with f | ⟨_ | y, k⟩ <;> rw [hr] at h5 h7 <;> dsimp only at h5
    · exact .inl ⟨_, s2, h5⟩
    · exact .inr (.inl ⟨s2, k, h5⟩)
    · obtain ⟨h8, h9⟩ := feas_accepts hI hG hio e opts hr
      exact .inr (.inr ⟨s2, y, k, h5, h7 y k rfl, h8, h9⟩)

end

/-! ### Linear matrix inequalities -/

section

variable {matF : Fin q → Mat m} {matB : Mat m} {vopt : Val} {opts : Options ℝ} {ext : ℕ → String → List Val → M W Val} {fuel : ℕ} {x : Vec q} {cl : String}

theorem lmi_honest_source (hq : 2 ≤ q) (hp : 20 * ((m : ℝ) + 1) * ((m : ℝ) + q + 1) ≤ 2 ^ p) {assess : LDLTMgr ℝ → Vec q → LDLTMgr ℝ × Except Fault (Option (Vec q × ℝ))} {own : St W → ℕ → Prop} {Q : St W → LDLTMgr ℝ → Prop} {vo : Val}
    (hans : ∀ γ, (Arith.ieee p).Accurate (2⁻¹ ^ p) γ m → 2⁻¹ ^ p ≤ γ → 10 * m * γ ≤ 1 → (1 + 2⁻¹ ^ p) ^ (q + 1) - 1 ≤ γ → ∀ o x, o.ndim = m → LmiAnswer matF matB x γ (assess o x))
    (hQ : ∀ free : Prop, FeasOracle (Arith.ieee p) ext (fuel + 7) vo own (fun o x => ((assess o x).1, (assess o x).2.map fun r => r.map fun c => (c.1, .scalar c.2))) Q free) {st : St W} {o : LDLTMgr ℝ} (hI : o.ndim = m) (ho : Q st o)
    (hopt : OptionsAt (Arith.ieee p) st vopt opts) (hlt : ∀ k, vopt = .ref k → k < st.next) {val : InitVal q} {w : Val} (hv : IsInit (Arith.ieee p) st val w) {lx : ℕ} (hx : st.heap lx = some (.vec q x)) (hltx : lx < st.next) (hox : ¬ own st lx)
    (hc : cl = "Ell" ∨ cl = "EllStable") :
    ∃ s1, call (mach (Arith.ieee p) ext) (fuel + 3) (.glob cl) [w, .ref lx] st = .ok (.ref st.next) s1 ∧
      HonestFeas lx opts.maxIters (NearLmi p matF matB) (call (mach (Arith.ieee p) ext) (fuel + 8) (.glob "cutting_plane_feas") [vo, .ref st.next, vopt] s1) := by
  have hup : (2⁻¹ : ℝ) ^ p * 2 ^ p = 1 := by rw [← mul_pow]; norm_num
  have hu0 : (0 : ℝ) < 2⁻¹ ^ p := by positivity
  have hinv : (2 ^ p : ℝ)⁻¹ = 2⁻¹ ^ p := by rw [inv_pow]
  have hq2 : (2 : ℝ) ≤ q := by exact_mod_cast hq
  have hm0 : (0 : ℝ) ≤ m := Nat.cast_nonneg _
  have hbig : 20 * ((m : ℝ) + q + 1) ≤ 2 ^ p := by nlinarith
  have hp4 : 4 ≤ p := four_le_bits (by linarith) hbig
  have hord : 20 * (((m : ℝ) + 1) * ((m : ℝ) + q + 1) * 2⁻¹ ^ p) ≤ 1 := by
    have := mul_le_mul_of_nonneg_right hp hu0.le
    rw [mul_comm ((2 : ℝ) ^ p), hup] at this
    linarith
  have hs0 : 0 ≤ ((m : ℝ) + q + 1) * 2⁻¹ ^ p := by positivity
  have hms0 : 0 ≤ m * (((m : ℝ) + q + 1) * 2⁻¹ ^ p) := by positivity
  obtain ⟨γ, hγ⟩ : ∃ γ : ℝ, γ = 2 * ((m : ℝ) + q + 1) * 2⁻¹ ^ p := ⟨_, rfl⟩
  have hmγ : 10 * m * γ ≤ 1 := by rw [hγ]; nlinarith
  have hN : ((m + q : ℕ) : ℝ) + 1 = (m : ℝ) + q + 1 := by push_cast; ring
  have hle : ((1 : ℝ) + 2⁻¹ ^ p) ^ (m + q + 1) - 1 ≤ γ := by
    have := Arith.ieee_gamma_le (p := p) (n := m + q) (by rw [hN]; nlinarith)
    rwa [hN, ← hγ] at this
  have hans' := hans γ ((Arith.ieee_accurate p (m + q)).mono (by omega) hle) ((Arith.ieee_le_gamma p (m + q)).trans hle) hmγ (le_trans (by
      have : ((1 : ℝ) + 2⁻¹ ^ p) ^ (q + 1) ≤ (1 + 2⁻¹ ^ p) ^ (m + q + 1) := pow_le_pow_right₀ (by linarith) (by omega)
      linarith) hle)
  obtain ⟨h1, h2⟩ := spaces_init hq hp4 val x
  refine honest_source (I := fun o => o.ndim = m) (literals_ieee (by omega)) (dimension_ieee (by linarith)) hQ (fun o x ho => (hans' o x ho).runs.1) (fun o x o' ho ha v => ?_) ho hI hopt hlt hv hx hltx hox h1 h2 hc
  have hacc : (assess o x).2 = .ok none := by
    have h7 : (assess o x).2.map (fun r => r.map fun c => ((c.1, .scalar c.2) : Cut q)) = .ok none := congrArg Prod.snd ha
    clear ha
    generalize (assess o x).2 = r at h7 ⊢
    rcases r with f | ⟨_ | c⟩
    · cases h7
    · rfl
    · cases h7
  have h6 := (hans' o x ho).accepted hacc v
  rw [hγ] at h6
  rw [div_eq_mul_inv, hinv]
  unfold absQuad lmiMat at h6
  linarith

/-- **C123.** `LMIOracle(mat_f, mat_b)`, then `Ell(val, x)` or `EllStable(val, x)`, then `cutting_plane_feas`, from the text on machine numbers with `2^p ≥ 20 (m+1)(m+q+1)`: a point that comes back satisfies the inequality up to `14 m (m+q+1) 2^-p` times the sizes of the data. -/
theorem C123_lmi (hq : 2 ≤ q) (hp : 20 * ((m : ℝ) + 1) * ((m : ℝ) + q + 1) ≤ 2 ^ p) (hF : ∀ k, (matF k).IsSymm) (hB : matB.IsSymm) {lf : Fin q → ℕ} {lb : ℕ} {st : St W} (hm : MatsAt st lf matF (some (lb, matB))) {lx : ℕ}
    (S : Start (Arith.ieee p) st lx x vopt opts) {val : InitVal q} {w : Val} (hv : IsInit (Arith.ieee p) st val w) (hc : cl = "Ell" ∨ cl = "EllStable") :
    ∃ s0 s1, call (mach (Arith.ieee p) ext) (fuel + 3) (.glob "LMIOracle") [.list (List.ofFn fun k => .ref (lf k)), .ref lb] st = .ok (.ref st.next) s0
      ∧ call (mach (Arith.ieee p) ext) (fuel + 3) (.glob cl) [w, .ref lx] s0 = .ok (.ref s0.next) s1
      ∧ HonestFeas lx opts.maxIters (NearLmi p matF matB) (call (mach (Arith.ieee p) ext) (fuel + 8) (.glob "cutting_plane_feas") [.ref st.next, .ref s0.next, vopt] s1) := by
  obtain ⟨s0, lm, lw, ls, h1, h2, hw, hf⟩ := lmi_init (A := Arith.ieee p) (ext := ext) (fuel := fuel) hm
  have hp2 : 2 ≤ p := by
    have := four_le_bits (p := p) (z := 20 * ((m : ℝ) + 1) * ((m : ℝ) + q + 1)) (by nlinarith [(Nat.cast_nonneg m : (0 : ℝ) ≤ m), (Nat.cast_nonneg q : (0 : ℝ) ≤ q)]) hp
    omega
  have S' := S.mono hf
  obtain ⟨s1, h3, h4⟩ := lmi_honest_source (fuel := fuel) (matF := matF) (matB := matB) hq hp (fun γ h1 h2 h3 h4 o x ho => C93_lmi hF hB o ho h1 (by positivity) h2 h3 h4 x)
    (fun free => lmi_assess (fuel := fuel + 3) (ext := ext) (literals_ieee hp2) (D := ⟨"LMIOracle", st.next, lm, lw, ls, lf, matF, some (lb, matB)⟩) rfl rfl (W := W) (free := free)) h2.dim h2 S'.options S'.optlt (hv.mono hf) S'.point S'.ltx
    (lmi_apart h2 hm S.point S.ltx hw hf) hc
  exact ⟨s0, s1, h1, h3, h4⟩

/-- **C123.** The same for `LMIOldOracle`. -/
theorem C123_lmi_old (hq : 2 ≤ q) (hp : 20 * ((m : ℝ) + 1) * ((m : ℝ) + q + 1) ≤ 2 ^ p) (hF : ∀ k, (matF k).IsSymm) (hB : matB.IsSymm) {lf : Fin q → ℕ} {lb : ℕ} {st : St W} (hm : MatsAt st lf matF (some (lb, matB))) {lx : ℕ}
    (S : Start (Arith.ieee p) st lx x vopt opts) {val : InitVal q} {w : Val} (hv : IsInit (Arith.ieee p) st val w) (hc : cl = "Ell" ∨ cl = "EllStable") :
    ∃ s0 s1, call (mach (Arith.ieee p) ext) (fuel + 3) (.glob "LMIOldOracle") [.list (List.ofFn fun k => .ref (lf k)), .ref lb] st = .ok (.ref st.next) s0
      ∧ call (mach (Arith.ieee p) ext) (fuel + 3) (.glob cl) [w, .ref lx] s0 = .ok (.ref s0.next) s1
      ∧ HonestFeas lx opts.maxIters (NearLmi p matF matB) (call (mach (Arith.ieee p) ext) (fuel + 8) (.glob "cutting_plane_feas") [.ref st.next, .ref s0.next, vopt] s1) := by
  obtain ⟨s0, lm, lw, ls, h1, h2, hw, hf⟩ := lmiOld_init (A := Arith.ieee p) (ext := ext) (fuel := fuel) hm
  have hp2 : 2 ≤ p := by
    have := four_le_bits (p := p) (z := 20 * ((m : ℝ) + 1) * ((m : ℝ) + q + 1)) (by nlinarith [(Nat.cast_nonneg m : (0 : ℝ) ≤ m), (Nat.cast_nonneg q : (0 : ℝ) ≤ q)]) hp
    omega
  have S' := S.mono hf
  obtain ⟨s1, h3, h4⟩ := lmi_honest_source (fuel := fuel) (matF := matF) (matB := matB) hq hp (fun γ h1 h2 h3 h4 o x ho => C93_lmi_old hF hB o ho h1 (by positivity) h2 h3 h4 x)
    (fun free => lmiOld_assess (fuel := fuel + 3) (ext := ext) (literals_ieee hp2) (D := ⟨"LMIOldOracle", st.next, lm, lw, ls, lf, matF, some (lb, matB)⟩) rfl rfl (W := W) (free := free)) h2.dim h2 S'.options S'.optlt (hv.mono hf) S'.point S'.ltx
    (lmi_apart h2 hm S.point S.ltx hw hf) hc
  exact ⟨s0, s1, h1, h3, h4⟩

/-- **C123.** `LMI0Oracle(mat_f)`: the matrix is `Σ y_k mat_f[k]`. -/
theorem C123_lmi0 (hq : 2 ≤ q) (hp : 20 * ((m : ℝ) + 1) * ((m : ℝ) + q + 1) ≤ 2 ^ p) (hF : ∀ k, (matF k).IsSymm) {lf : Fin q → ℕ} {st : St W} (hm : MatsAt st lf matF none) {lx : ℕ}
    (S : Start (Arith.ieee p) st lx x vopt opts) {val : InitVal q} {w : Val} (hv : IsInit (Arith.ieee p) st val w) (hc : cl = "Ell" ∨ cl = "EllStable") :
    ∃ s0 s1, call (mach (Arith.ieee p) ext) (fuel + 3) (.glob "LMI0Oracle") [.list (List.ofFn fun k => .ref (lf k))] st = .ok (.ref st.next) s0
      ∧ call (mach (Arith.ieee p) ext) (fuel + 3) (.glob cl) [w, .ref lx] s0 = .ok (.ref s0.next) s1
      ∧ HonestFeas lx opts.maxIters (NearLmi p (fun k => -matF k) 0) (call (mach (Arith.ieee p) ext) (fuel + 8) (.glob "cutting_plane_feas") [.ref st.next, .ref s0.next, vopt] s1) := by
  obtain ⟨s0, h0⟩ := lmi0_init (A := Arith.ieee p) (ext := ext) (fuel := fuel) hm
  rw [LMI0Oracle.init, if_neg (by omega)] at h0
  obtain ⟨h1, ⟨lm, lw, ls, h2, hw⟩, hf⟩ := h0
  have hp2 : 2 ≤ p := by
    have := four_le_bits (p := p) (z := 20 * ((m : ℝ) + 1) * ((m : ℝ) + q + 1)) (by nlinarith [(Nat.cast_nonneg m : (0 : ℝ) ≤ m), (Nat.cast_nonneg q : (0 : ℝ) ≤ q)]) hp
    omega
  have S' := S.mono hf
  obtain ⟨s1, h3, h4⟩ := lmi_honest_source (fuel := fuel) (matF := fun k => -matF k) (matB := 0) hq hp (fun γ h1 h2 h3 h4 o x ho => C93_lmi0 hF o ho h1 (by positivity) h2 h3 h4 x)
    (fun free => lmi0_assess (fuel := fuel + 3) (ext := ext) (literals_ieee hp2) (D := ⟨"LMI0Oracle", st.next, lm, lw, ls, lf, matF, none⟩) rfl (W := W) (free := free)) h2.dim h2 S'.options S'.optlt (hv.mono hf) S'.point S'.ltx
    (lmi_apart h2 hm S.point S.ltx hw hf) hc
  exact ⟨s0, s1, h1, h3, h4⟩

end

/-! ### Filter design -/

end Py

namespace Spec.FloatSampling

variable {d : LowpassDesign} {n p : ℕ} (H : FloatSampling d n p)

include H

theorem low_small : 164 * (((1 : ℝ) + 2⁻¹ ^ p) ^ (n + 1) - 1) ≤ 1 ∧ ((1 : ℝ) + 2⁻¹ ^ p) ^ (n + 1) - 1 ≤ 2 * (n + 1) * 2⁻¹ ^ p := by
  have hup : (2⁻¹ : ℝ) ^ p * 2 ^ p = 1 := by rw [← mul_pow]; norm_num
  have hu0 : (0 : ℝ) ≤ 2⁻¹ ^ p := by positivity
  have h2 := mul_le_mul_of_nonneg_left H.bits hu0
  have h0 : 0 ≤ ((n : ℝ) + 1) * 2⁻¹ ^ p := by positivity
  have hγ := Arith.ieee_gamma_le (p := p) (n := n) (by linarith)
  exact ⟨by linarith, hγ⟩

theorem low_good (sp : ℝ) : (Arith.ieee p).LowGood d ((Arith.ieee p).lowInit n d.wpass d.wstop d.lpSq d.upSq sp) where
  mdim := rfl
  spectrum := rfl
  nwpass := lowEdge_bits H.passEdge
  nwstop := lowEdge_bits H.stopEdge
  lpSq := rfl
  upSq := rfl
  idx1 := Nat.succ_pos _
  idx2 := fun h => ⟨le_rfl, h⟩
  idx3 := fun h => ⟨le_rfl, h⟩

theorem low_error (y : Vec n) : respErr n ((1 + 2⁻¹ ^ p) ^ (n + 1) - 1) * nrm y ≤ responseError n p * Real.sqrt (y ⬝ᵥ y) := by
  refine mul_le_mul_of_nonneg_right ?_ (nrm_nonneg y)
  unfold respErr responseError
  have := mul_le_mul_of_nonneg_right H.low_small.2 (Real.sqrt_nonneg (n : ℝ))
  linarith

theorem low_stop (hw : d.wstop < 1) : (Arith.ieee p).lowEdge (15 * n) d.wstop < 15 * n := by
  have hn : 0 < n := by have := H.dim; omega
  rw [lowEdge_bits H.stopEdge]
  have h := LowpassOracle.init_good n d 0
  have h1 := (LowpassOracle.nwstop_lt_iff h H.proper hn).mpr hw
  rwa [h.nwstop, h.mdim] at h1

end Spec.FloatSampling

namespace Py

section

variable {W : Type} {m p : ℕ} {d : LowpassDesign} {x : Vec (m + 1)} {vopt : Val} {opts : Options ℝ} {ext : ℕ → String → List Val → M W Val} {fuel : ℕ} {cl : String} {st : St W} {lx : ℕ}

/-- **C123.** `LowpassOracle(...)`, then `Ell(val, x)` or `EllStable(val, x)`, then `cutting_plane_feas`, from the text on machine numbers with `2^p ≥ 328 (n+1)`: a filter that comes back meets the specification up to `340 (n+1) √n 2^-p` times its length. -/
theorem C123_lowpass (H : FloatSampling d (m + 1) p) (sp : ℝ) (S : Start (Arith.ieee p) st lx x vopt opts) {val : InitVal (m + 1)} {w : Val} (hv : IsInit (Arith.ieee p) st val w) (hc : cl = "Ell" ∨ cl = "EllStable") :
    ∃ s0 s1, call (mach (Arith.ieee p) ext) (fuel + 2) (.glob "LowpassOracle") [.int ((m + 1 : ℕ) : ℤ), .num d.wpass, .num d.wstop, .num d.lpSq, .num d.upSq, .num sp] st = .ok (.ref st.next) s0
      ∧ call (mach (Arith.ieee p) ext) (fuel + 3) (.glob cl) [w, .ref lx] s0 = .ok (.ref s0.next) s1
      ∧ HonestFeas lx opts.maxIters (fun y : Vec (m + 1) => d.Near sp (responseError (m + 1) p * Real.sqrt (y ⬝ᵥ y)) y) (call (mach (Arith.ieee p) ext) (fuel + 8) (.glob "cutting_plane_feas") [.ref st.next, .ref s0.next, vopt] s1) := by
  have hn2 : (2 : ℝ) ≤ ((m + 1 : ℕ) : ℝ) := by exact_mod_cast H.dim
  have hb := H.bits
  have hp4 : 4 ≤ p := four_le_bits (by linarith) hb
  have hA : Literals (Arith.ieee p) := literals_ieee (by omega)
  obtain ⟨s0, h1, h2, hf⟩ := low_init (A := Arith.ieee p) (ext := ext) (fuel := fuel) (st := st) d.wpass d.wstop d.lpSq d.upSq sp (edge_ieee_nonneg H.proper.wpass_nonneg m) (edge_ieee_nonneg H.proper.wstop_nonneg m)
  have S' := S.mono hf
  obtain ⟨h3, h4⟩ := spaces_init H.dim hp4 val x
  have key := fun (o : LowpassOracle (m + 1)) (y : Vec (m + 1)) (ho : (Arith.ieee p).LowGood d o ∧ o.spSq = sp) =>
    (Arith.ieee p).lowFeas_spec ho.1 (Nat.succ_pos m) (ho.1.nwpass_le H.proper (Nat.succ_pos m)) (ho.1.nwstop_le H.proper (Nat.succ_pos m)) y
  obtain ⟨s1, h5, h6⟩ := honest_source (fuel := fuel) (ext := ext) (I := fun o => (Arith.ieee p).LowGood d o ∧ o.spSq = sp) (good := fun y : Vec (m + 1) => d.Near sp (responseError (m + 1) p * Real.sqrt (y ⬝ᵥ y)) y) hA (dimension_ieee (by linarith))
    (fun free => low_feas_oracle (fuel := fuel + 5) (free := free) hA st.next (st.next + 7)) (fun o y ho => ⟨(key o y ho).1, (key o y ho).2.1.trans ho.2⟩) (fun o y o' ho ha => by
      rcases (key o y ho).2.2 with ⟨-, hcl, -⟩ | ⟨cut, hcut, -⟩
      · have := hcl.near ho.1 H.proper (Arith.ieee_accurate p (m + 1)) (by positivity) (Arith.ieee_nu_le p (m + 1)) H.low_small.1 (Nat.succ_pos m)
        rw [ho.2] at this
        exact this.mono (H.low_error y)
      · rw [ha] at hcut; simp at hcut) h2 ⟨H.low_good sp, rfl⟩ S'.options S'.optlt (hv.mono hf) S'.point S'.ltx (lowOwn_old S.ltx le_rfl (by omega)) h3 h4 hc
  exact ⟨s0, s1, h1, h5, h6⟩

/-- **C123.** The same with `cutting_plane_optim` from any level: a filter comes back with a level that it attains at a sampled frequency of the stopband and for which it meets the design, both up to the error of the computed responses. -/
theorem C123_lowpass_design (H : FloatSampling d (m + 1) p) (hw : d.wstop < 1) (sp : ℝ) (S : Start (Arith.ieee p) st lx x vopt opts) {val : InitVal (m + 1)} {w : Val} (hv : IsInit (Arith.ieee p) st val w) {g0 : ℝ} {vg : Val}
    (hvg : IsNum (Arith.ieee p) g0 vg) (hc : cl = "Ell" ∨ cl = "EllStable") :
    ∃ s0 s1, call (mach (Arith.ieee p) ext) (fuel + 2) (.glob "LowpassOracle") [.int ((m + 1 : ℕ) : ℤ), .num d.wpass, .num d.wstop, .num d.lpSq, .num d.upSq, .num sp] st = .ok (.ref st.next) s0
      ∧ call (mach (Arith.ieee p) ext) (fuel + 3) (.glob cl) [w, .ref lx] s0 = .ok (.ref s0.next) s1
      ∧ HonestBest lx g0 (fun (y : Vec (m + 1)) γ => d.Near γ (responseError (m + 1) p * Real.sqrt (y ⬝ᵥ y)) y ∧ d.Attains γ (responseError (m + 1) p * Real.sqrt (y ⬝ᵥ y)) y)
        (call (mach (Arith.ieee p) ext) (fuel + 8) (.glob "cutting_plane_optim") [.ref st.next, .ref s0.next, vg, vopt] s1) := by
  have hn2 : (2 : ℝ) ≤ ((m + 1 : ℕ) : ℝ) := by exact_mod_cast H.dim
  have hb := H.bits
  have hp4 : 4 ≤ p := four_le_bits (by linarith) hb
  have hn : 0 < m + 1 := Nat.succ_pos m
  have hlt := H.low_stop hw
  have hu0 : (0 : ℝ) ≤ 2⁻¹ ^ p := by positivity
  have hγ := H.low_small.1
  have hgood : (Arith.ieee p).LowInv d ((Arith.ieee p).lowInit (m + 1) d.wpass d.wstop d.lpSq d.upSq sp) := ⟨H.low_good sp, hlt⟩
  obtain ⟨⟨e, he⟩, ⟨es, hes⟩⟩ := spaces_init H.dim hp4 val x
  obtain ⟨s0, h1, h2, h3⟩ := C105_optim (ext := ext) (fuel := fuel) (literals_ieee (by omega)) (dimension_ieee (by linarith)) S d.wpass d.wstop d.lpSq d.upSq sp (edge_ieee_nonneg H.proper.wpass_nonneg m) (edge_ieee_nonneg H.proper.wstop_nonneg m) hlt hv hvg
  have hP : ∀ (o : LowpassOracle (m + 1)) (y : Vec (m + 1)) (g : ℝ) o2 cut g1, (Arith.ieee p).LowInv d o → (Arith.ieee p).lowOptim o y g = (o2, .ok (cut, some g1)) →
      d.Near g1 (responseError (m + 1) p * Real.sqrt (y ⬝ᵥ y)) y ∧ d.Attains g1 (responseError (m + 1) p * Real.sqrt (y ⬝ᵥ y)) y := fun o y g o2 cut g1 ho ha => by
    have := ((Arith.ieee p).lowOptim_spec ho.1 H.proper hn ho.2 y g).2
    rw [ha] at this
    rcases this with ⟨cut', a1, -⟩ | ⟨hc, k, k1, k2, k3, a1⟩
    · cases a1
    · simp only [Except.ok.injEq, Prod.mk.injEq, Option.some.injEq] at a1
      obtain ⟨-, rfl⟩ := a1
      have hm := ho.1.mdim
      have b1 : (Arith.ieee p).LowClear { o with spSq := (Arith.ieee p).dot (o.spectrum k) y } y := ⟨hc.pass, fun i i1 i2 => ⟨(hc.stop i i1 i2).1, k3 i i1 i2⟩, hc.trans, hc.first⟩
      refine ⟨(b1.near (ho.1.withLevel _) H.proper (Arith.ieee_accurate p (m + 1)) hu0 (Arith.ieee_nu_le p (m + 1)) hγ hn).mono (H.low_error y), k, by omega, (ho.1.stop_iff H.proper hn k).mp k1, ?_⟩
      rw [abs_sub_comm, ho.1.spectrum]
      exact (Arith.lowResp_err (Arith.ieee_accurate p (m + 1)) hu0 (Arith.ieee_nu_le p (m + 1)) hγ (by omega) y).trans (H.low_error y)
  have hI : ∀ (o : LowpassOracle (m + 1)) (y : Vec (m + 1)) (g : ℝ), (Arith.ieee p).LowInv d o → (Arith.ieee p).LowInv d ((Arith.ieee p).lowOptim o y g).1 := fun o y g ho => ho.next ((Arith.ieee p).lowOptim_spec ho.1 H.proper hn ho.2 y g).1
  rcases hc with rfl | rfl
  · obtain ⟨s1, h4, s2, -, h5⟩ := h2 e he
    refine ⟨s0, s1, h1, h4, ?_⟩
    rcases hres : optim (Arith.ieee p).lowOptim ((Arith.ieee p).space (m + 1)) ltReal ((Arith.ieee p).lowInit (m + 1) d.wpass d.wstop d.lpSq d.upSq sp) e g0 opts with ⟨o', e', f | ⟨xb, γ, k⟩⟩ <;> rw [hres] at h5
    · exact .inl ⟨_, s2, h5⟩
    · rcases optim_best_spec (I := (Arith.ieee p).LowInv d) hI hP hgood hres with ⟨rfl, rfl⟩ | ⟨y, rfl, h6⟩
      · obtain ⟨vg', h7, h8⟩ := h5
        exact .inr (.inl ⟨s2, vg', k, h7, h8.2⟩)
      · obtain ⟨lb, vg', h7, h8, h9, h10⟩ := h5
        exact .inr (.inr ⟨s2, lb, y, vg', γ, k, h7, h9, h10, h8.2, h6⟩)
  · obtain ⟨s1, h4, s2, -, h5⟩ := h3 es hes
    refine ⟨s0, s1, h1, h4, ?_⟩
    rcases hres : optim (Arith.ieee p).lowOptim ((Arith.ieee p).stableSpace (m + 1)) ltReal ((Arith.ieee p).lowInit (m + 1) d.wpass d.wstop d.lpSq d.upSq sp) es g0 opts with ⟨o', e', f | ⟨xb, γ, k⟩⟩ <;> rw [hres] at h5
    · exact .inl ⟨_, s2, h5⟩
    · rcases optim_best_spec (I := (Arith.ieee p).LowInv d) hI hP hgood hres with ⟨rfl, rfl⟩ | ⟨y, rfl, h6⟩
      · obtain ⟨vg', h7, h8⟩ := h5
        exact .inr (.inl ⟨s2, vg', k, h7, h8.2⟩)
      · obtain ⟨lb, vg', h7, h8, h9, h10⟩ := h5
        exact .inr (.inr ⟨s2, lb, y, vg', γ, k, h7, h9, h10, h8.2, h6⟩)

end

/-! ### Instances in doubles -/

/-- Doubles meet the hypotheses: `LMIOracle([F0, F1], B)` with `EllStable(1, x)` on a heap with the matrices, a point and options. -/
example : ∃ s0 s1 : St Unit, call (mach (Arith.ieee 53) fun _ _ _ => M.exc "TypeError") 3 (.glob "LMIOracle") [.list [.ref 0, .ref 1], .ref 2] diskHeap = .ok (.ref 5) s0
    ∧ call (mach (Arith.ieee 53) fun _ _ _ => M.exc "TypeError") 3 (.glob "EllStable") [.num 1, .ref 3] s0 = .ok (.ref s0.next) s1
    ∧ HonestFeas 3 2000 (NearLmi 53 lmiHeapF diskB) (call (mach (Arith.ieee 53) fun _ _ _ => M.exc "TypeError") 8 (.glob "cutting_plane_feas") [.ref 5, .ref s0.next, .ref 4] s1) :=
  C123_lmi (fuel := 0) le_rfl (by norm_num) lmiHeap_symm.1 (by ext i j; fin_cases i <;> fin_cases j <;> rfl) diskHeap_at ⟨rfl, by decide, diskHeap_options, by rintro k ⟨⟩; decide⟩ (.num 1) (.inr rfl)

/-- `LMIOldOracle([F0, F1], B)` and `LMI0Oracle([F0, F1])` with `Ell(1, x)` on the same heap. -/
example : (∃ s0 s1 : St Unit, HonestFeas 3 2000 (NearLmi 53 lmiHeapF diskB) (call (mach (Arith.ieee 53) fun _ _ _ => M.exc "TypeError") 8 (.glob "cutting_plane_feas") [.ref 5, .ref s0.next, .ref 4] s1))
    ∧ ∃ s0 s1 : St Unit, HonestFeas 3 2000 (NearLmi 53 (fun k => -lmiHeapF k) 0) (call (mach (Arith.ieee 53) fun _ _ _ => M.exc "TypeError") 8 (.glob "cutting_plane_feas") [.ref 5, .ref s0.next, .ref 4] s1) := by
  have S : Start (Arith.ieee 53) diskHeap 3 (![0, 0] : Vec 2) (.ref 4) ⟨2000, (Arith.ieee 53).rnd (1 / 10 ^ 20)⟩ := ⟨rfl, by decide, diskHeap_options, by rintro k ⟨⟩; decide⟩
  obtain ⟨s0, s1, -, -, h1⟩ := C123_lmi_old (cl := "Ell") (ext := fun _ _ _ => M.exc "TypeError") (fuel := 0) le_rfl (by norm_num) lmiHeap_symm.1 (by ext i j; fin_cases i <;> fin_cases j <;> rfl) diskHeap_at S (.num 1) (.inl rfl)
  obtain ⟨t0, t1, -, -, h2⟩ := C123_lmi0 (cl := "Ell") (ext := fun _ _ _ => M.exc "TypeError") (fuel := 0) le_rfl (by norm_num) lmiHeap_symm.1 (⟨diskHeap_at.F, nofun, diskHeap_at.ltF, nofun⟩ : MatsAt diskHeap _ lmiHeapF none) S (.num 1) (.inl rfl)
  exact ⟨⟨s0, s1, h1⟩, t0, t1, h2⟩

/-- And of the filter design: `wideDesign` with `EllStable`, both loops. -/
example : FloatSampling wideDesign 2 53 ∧ wideDesign.wstop < 1 ∧ ∀ ext fuel, ∃ s0 s1 : St Unit,
      call (mach (Arith.ieee 53) ext) (fuel + 2) (.glob "LowpassOracle") [.int 2, .num 0, .num (1 / 2), .num 0, .num 9, .num 1] (desk 0 0 ![44 / 10, 0] 3000 0) = .ok (.ref 4) s0 ∧
      call (mach (Arith.ieee 53) ext) (fuel + 3) (.glob "EllStable") [.num 40, .ref 2] s0 = .ok (.ref s0.next) s1 ∧
      HonestBest 2 16 (fun (y : Vec 2) γ => wideDesign.Near γ (responseError 2 53 * Real.sqrt (y ⬝ᵥ y)) y ∧ wideDesign.Attains γ (responseError 2 53 * Real.sqrt (y ⬝ᵥ y)) y)
        (call (mach (Arith.ieee 53) ext) (fuel + 8) (.glob "cutting_plane_optim") [.ref 4, .ref s0.next, .num 16, .ref 3] s1) := by
  have H : FloatSampling wideDesign (1 + 1) 53 := ⟨wide_float.dim, wide_float.proper, wide_float.passEdge, wide_float.stopEdge, by norm_num⟩
  have hw : wideDesign.wstop < 1 := by norm_num [wideDesign]
  have D : Start (Arith.ieee 53) (desk 0 0 ![44 / 10, 0] 3000 0) 2 (![44 / 10, 0] : Vec (1 + 1)) (.ref 3) ⟨3000, 0⟩ :=
    ⟨rfl, show 2 < 4 by decide, ⟨3, _, rfl, rfl, .inl rfl, .inl ⟨_, rfl, rfl⟩⟩, by rintro k ⟨⟩; exact (show 3 < 4 by decide)⟩
  exact ⟨H, hw, fun ext fuel => C123_lowpass_design (m := 1) H hw 1 D (.num 40) (IsNum.num _ 16) (.inr rfl)⟩

end Py

end Ellalgo
