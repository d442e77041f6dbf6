import Verif.Py.Refine.Lmi
import Verif.Props.SourceRuns
import Verif.Props.LmiConverge
import Verif.Props.RoundedLmi

/-!
# Linear matrix inequalities, from the text

`LMIOracle`, `LMI0Oracle` and `LMIOldOracle` (with `LDLTMgr`), `Ell` and `cutting_plane_feas`, run by the evaluator of `Py/Semantics`.
-/

namespace Ellalgo.Py

open Finset Matrix Spec CuttingPlane

variable {W : Type} {m q : ℕ}

theorem lmiOmega_exact (matF : Fin q → Mat m) (matB : Mat m) : lmiOmegaA Arith.exact matF matB = lmiOmega matF matB := by
  funext mgr x; simp only [lmiOmegaA, lmiOmega, (C93_exact matF matB mgr x).1]

theorem lmi0Omega_exact (matF : Fin q → Mat m) : lmi0OmegaA Arith.exact matF = lmi0Omega matF := by
  funext mgr x; simp only [lmi0OmegaA, lmi0Omega, (C93_exact matF 0 mgr x).2.1]

theorem lmiOldOmega_exact (matF : Fin q → Mat m) (matB : Mat m) : lmiOldOmegaA Arith.exact matF matB = lmiOmega matF matB := by
  funext mgr x; simp only [lmiOldOmegaA, lmiOmega, (C93_exact matF matB mgr x).2.2, C45_old_and_new_agree]

section

variable {O : Type} {ext : ℕ → String → List Val → M W Val} {fuel : ℕ} {vo vopt : Val} {opts : Options ℝ}

/-- The two ways of saying what a run from a state gives: what it returns is a point where `M` is positive definite, or `None`; and it does return such a point if the ball has a point where `M ≥ μ I`, the tolerance is at most `μ²`
and the iterations suffice. -/
structure Finds (M : Vec q → Matrix (Fin m) (Fin m) ℝ) (x : Vec q) (R : ℝ) (opts : Options ℝ) (lx : ℕ) (r : Res W Val) : Prop where
  sound : ∀ v k s2, r = .ok (.tuple [v, .int k]) s2 → v = .none ∨ v = .ref lx ∧ ∃ y, s2.heap lx = some (.vec q y) ∧ QuadPos (M y)
  finds : ∀ y0 ∈ ball x R, ∀ μ Λ : ℝ, 0 < μ → 0 ≤ Λ → (∀ v, μ * (v ⬝ᵥ v) ≤ v ⬝ᵥ (M y0 *ᵥ v)) → (∀ y ∈ ball x R, ∀ v, -Λ * (v ⬝ᵥ v) ≤ v ⬝ᵥ (M y *ᵥ v)) →
    2 * q * ((q : ℝ) + 1) * Real.log ((μ + Λ) / μ) < opts.maxIters → opts.tolerance ≤ μ ^ 2 →
    ∃ s2 k y, r = .ok (.tuple [.ref lx, .int (k : ℕ)]) s2 ∧ s2.heap lx = some (.vec q y) ∧ QuadPos (M y) ∧ (k : ℝ) ≤ 2 * q * ((q : ℝ) + 1) * Real.log ((μ + Λ) / μ)

/-- The point is not one of the locations of the oracle. -/
theorem lmi_apart {D : LmiCells m q} {st s0 : St W} {o : LDLTMgr ℝ} (h : LmiAt D s0 o) (hm : MatsAt st D.lf D.matF D.b) {lx : ℕ} {x : Vec q} (hx : st.heap lx = some (.vec q x)) (hltx : lx < st.next)
    (hw : st.next ≤ D.lw) (hf : Frame (fun _ => False) st s0) : ¬ D.own lx := by
  have hx0 := (hf.same lx hltx not_false).trans hx
  rintro ((rfl | ⟨i, rfl⟩ | ⟨p, hp, rfl⟩) | rfl | rfl | rfl)
  · obtain ⟨attrs, h1, -⟩ := h.data.obj
    rw [h1] at hx0; simp at hx0
  · rw [hm.F i] at hx; simp [Obj.square] at hx
  · rw [hm.B p hp] at hx; simp [Obj.square] at hx
  · obtain ⟨attrs, h1, -⟩ := h.mgr.obj
    rw [h1] at hx0; simp at hx0
  · omega
  · rw [h.mgr.storage] at hx0; simp [Obj.square] at hx0

theorem WitnessOracle.cutting {I : O → Prop} {M : Vec q → Matrix (Fin m) (Fin m) ℝ} {omega : OracleFeas O (Vec q) (Cut q)} (hω : WitnessOracle I M omega) : CuttingOracle I ∅ omega where
  inv := hω.inv
  cut o x o' cut hi ha := by
    obtain ⟨g, ep, v, rfl, h1, -⟩ := hω.cut o x o' cut hi ha
    exact ⟨h1, Set.empty_subset _⟩

theorem witness_source {I : O → Prop} {M : Vec q → Matrix (Fin m) (Fin m) ℝ} {omega : OracleFeas O (Vec q) (Cut q)} {own : St W → ℕ → Prop} {Q : St W → O → Prop} (hq : 2 ≤ q) (hM : AffineFamily M)
    (hω : WitnessOracle I M omega) (hQ : FeasOracle Arith.exact ext (fuel + 7) vo own omega Q) {st : St W} {o : O} (hI : I o) (ho : Q st o) (hopt : OptionsAt Arith.exact st vopt opts)
    (hlt : ∀ k, vopt = .ref k → k < st.next) {lx : ℕ} {x : Vec q} (hx : st.heap lx = some (.vec q x)) (hltx : lx < st.next) (hox : ¬ own st lx) {R : ℝ} (hR : 0 < R) :
    ∃ s1, call (mach Arith.exact ext) (fuel + 3) (.glob "Ell") [.num (R ^ 2), .ref lx] st = .ok (.ref st.next) s1
      ∧ Finds M x R opts lx (call (mach Arith.exact ext) (fuel + 8) (.glob "cutting_plane_feas") [vo, .ref st.next, vopt] s1) := by
  obtain ⟨e, he⟩ := (C60_init_rejects (.scalar (R ^ 2)) x).2 hq
  obtain ⟨s1, lm, h1, h2⟩ := ready_init literals_exact rfl hQ.toOracleAt ho hopt hlt (ext := ext) (fuel := fuel) (.num (R ^ 2)) hx hltx hox (show Arith.exact.ellInit _ x = .ok e from he)
  obtain ⟨hw, hreg, -⟩ := init_ball hR he
  obtain ⟨s2, h6, -, h7⟩ := C98_feas literals_exact hQ h2
  rw [exact_space] at h6 h7
  refine ⟨s1, h1, ⟨fun v k s2' hr => ?_, fun y0 hy0 μ Λ hμ hΛ b1 b2 hmax htol => ?_⟩⟩
  · rw [h6] at hr
    rcases hres : feas omega (Ell.space q) ltReal o e opts with ⟨o', e', f | ⟨_ | y, k'⟩⟩ <;> rw [hres] at hr h7 <;> simp at hr
    · exact .inl hr.1.1.symm
    · obtain ⟨⟨rfl, -⟩, rfl⟩ := hr
      refine .inr ⟨rfl, y, h7 y k' rfl, ?_⟩
      obtain ⟨-, -, l, o1, ht, -, ha⟩ := C20_feas_returns_accepted _ _ _ _ _ _ _ _ _ _ hres
      exact hω.accept _ _ _ (ht.inv_oracle (WitnessOracle.cutting hω) hI) ha
  · obtain ⟨o', e', res, k, h3, h4, ⟨y, rfl, h5⟩ | ⟨-, h8, h9⟩⟩ := witness_run hM hω o hI e hw y0 (by rw [hreg]; exact hy0)
      (fun v hv => lt_of_lt_of_le (mul_pos hμ (lt_of_le_of_ne (dot_self_nonneg' v) fun h => hv (dotProduct_self_eq_zero.mp h.symm))) (b1 v)) μ Λ hμ hΛ b1 (by rw [hreg]; exact b2) opts hmax
    · rw [h3] at h6 h7
      exact ⟨s2, k, y, h6, h7 y k rfl, h5, h4⟩
    · linarith

/-- **C100.** `LMIOracle(mat_f, mat_b)`, `Ell(R**2, x)`, then `cutting_plane_feas` of the text, in exact arithmetic: what is returned is a point where `mat_b - Σ y_k mat_f[k]` is positive definite, or `None`; and it is such a
point if the ball contains `y0` with `mat_b - Σ y0_k mat_f[k] ≥ μ I`, the tolerance is at most `μ²`, and there are enough iterations. -/
theorem C100_lmi (hq : 2 ≤ q) {lf : Fin q → ℕ} {matF : Fin q → Mat m} {lb : ℕ} {matB : Mat m} (hF : ∀ k, (matF k).IsSymm) (hB : matB.IsSymm) {st : St W} (hm : MatsAt st lf matF (some (lb, matB)))
    (hopt : OptionsAt Arith.exact st vopt opts) (hlt : ∀ k, vopt = .ref k → k < st.next) {lx : ℕ} {x : Vec q} (hx : st.heap lx = some (.vec q x)) (hltx : lx < st.next) {R : ℝ} (hR : 0 < R) :
    ∃ s0 s1, call (mach Arith.exact ext) (fuel + 3) (.glob "LMIOracle") [.list (List.ofFn fun k => .ref (lf k)), .ref lb] st = .ok (.ref st.next) s0
      ∧ call (mach Arith.exact ext) (fuel + 3) (.glob "Ell") [.num (R ^ 2), .ref lx] s0 = .ok (.ref s0.next) s1
      ∧ Finds (lmiMat matF matB) x R opts lx (call (mach Arith.exact ext) (fuel + 8) (.glob "cutting_plane_feas") [.ref st.next, .ref s0.next, vopt] s1) := by
  obtain ⟨s0, lm, lw, ls, h1, h2, hw, hf⟩ := lmi_init (A := Arith.exact) (ext := ext) (fuel := fuel) hm
  have hQ := lmi_assess (fuel := fuel + 3) (ext := ext) literals_exact (D := ⟨"LMIOracle", st.next, lm, lw, ls, lf, matF, some (lb, matB)⟩) rfl rfl (W := W) (free := True)
  rw [lmiOmega_exact] at hQ
  obtain ⟨s1, h3, h4⟩ := witness_source (fuel := fuel) hq (lmiMat_affine matF matB) (lmiOmega_witness matF matB hF hB) hQ h2.dim h2 (hopt.mono fun k _ hk _ => hf.same k (hlt k hk) not_false)
    (fun k hk => (hlt k hk).trans_le hf.next) ((hf.same lx hltx not_false).trans hx) (hltx.trans_le hf.next) (lmi_apart h2 hm hx hltx hw hf) hR
  exact ⟨s0, s1, h1, h3, h4⟩

/-- **C100.** The same for `LMIOldOracle`. -/
theorem C100_lmi_old (hq : 2 ≤ q) {lf : Fin q → ℕ} {matF : Fin q → Mat m} {lb : ℕ} {matB : Mat m} (hF : ∀ k, (matF k).IsSymm) (hB : matB.IsSymm) {st : St W} (hm : MatsAt st lf matF (some (lb, matB)))
    (hopt : OptionsAt Arith.exact st vopt opts) (hlt : ∀ k, vopt = .ref k → k < st.next) {lx : ℕ} {x : Vec q} (hx : st.heap lx = some (.vec q x)) (hltx : lx < st.next) {R : ℝ} (hR : 0 < R) :
    ∃ s0 s1, call (mach Arith.exact ext) (fuel + 3) (.glob "LMIOldOracle") [.list (List.ofFn fun k => .ref (lf k)), .ref lb] st = .ok (.ref st.next) s0
      ∧ call (mach Arith.exact ext) (fuel + 3) (.glob "Ell") [.num (R ^ 2), .ref lx] s0 = .ok (.ref s0.next) s1
      ∧ Finds (lmiMat matF matB) x R opts lx (call (mach Arith.exact ext) (fuel + 8) (.glob "cutting_plane_feas") [.ref st.next, .ref s0.next, vopt] s1) := by
  obtain ⟨s0, lm, lw, ls, h1, h2, hw, hf⟩ := lmiOld_init (A := Arith.exact) (ext := ext) (fuel := fuel) hm
  have hQ := lmiOld_assess (fuel := fuel + 3) (ext := ext) literals_exact (D := ⟨"LMIOldOracle", st.next, lm, lw, ls, lf, matF, some (lb, matB)⟩) rfl rfl (W := W) (free := True)
  rw [lmiOldOmega_exact] at hQ
  obtain ⟨s1, h3, h4⟩ := witness_source (fuel := fuel) hq (lmiMat_affine matF matB) (lmiOmega_witness matF matB hF hB) hQ h2.dim h2 (hopt.mono fun k _ hk _ => hf.same k (hlt k hk) not_false)
    (fun k hk => (hlt k hk).trans_le hf.next) ((hf.same lx hltx not_false).trans hx) (hltx.trans_le hf.next) (lmi_apart h2 hm hx hltx hw hf) hR
  exact ⟨s0, s1, h1, h3, h4⟩

/-- **C100.** `LMI0Oracle(mat_f)`: the matrix is `Σ y_k mat_f[k]`. -/
theorem C100_lmi0 (hq : 2 ≤ q) {lf : Fin q → ℕ} {matF : Fin q → Mat m} (hF : ∀ k, (matF k).IsSymm) {st : St W} (hm : MatsAt st lf matF none)
    (hopt : OptionsAt Arith.exact st vopt opts) (hlt : ∀ k, vopt = .ref k → k < st.next) {lx : ℕ} {x : Vec q} (hx : st.heap lx = some (.vec q x)) (hltx : lx < st.next) {R : ℝ} (hR : 0 < R) :
    ∃ s0 s1, call (mach Arith.exact ext) (fuel + 3) (.glob "LMI0Oracle") [.list (List.ofFn fun k => .ref (lf k))] st = .ok (.ref st.next) s0
      ∧ call (mach Arith.exact ext) (fuel + 3) (.glob "Ell") [.num (R ^ 2), .ref lx] s0 = .ok (.ref s0.next) s1
      ∧ Finds (lmi0Mat matF) x R opts lx (call (mach Arith.exact ext) (fuel + 8) (.glob "cutting_plane_feas") [.ref st.next, .ref s0.next, vopt] s1) := by
  obtain ⟨s0, h0⟩ := lmi0_init (A := Arith.exact) (ext := ext) (fuel := fuel) hm
  rw [LMI0Oracle.init, if_neg (by omega)] at h0
  obtain ⟨h1, ⟨lm, lw, ls, h2, hw⟩, hf⟩ := h0
  have hQ := lmi0_assess (fuel := fuel + 3) (ext := ext) literals_exact (D := ⟨"LMI0Oracle", st.next, lm, lw, ls, lf, matF, none⟩) rfl (W := W) (free := True)
  rw [lmi0Omega_exact] at hQ
  obtain ⟨s1, h3, h4⟩ := witness_source (fuel := fuel) hq (lmi0Mat_affine matF) (lmi0Omega_witness matF hF) hQ h2.dim h2 (hopt.mono fun k _ hk _ => hf.same k (hlt k hk) not_false)
    (fun k hk => (hlt k hk).trans_le hf.next) ((hf.same lx hltx not_false).trans hx) (hltx.trans_le hf.next) (lmi_apart h2 hm hx hltx hw hf) hR
  exact ⟨s0, s1, h1, h3, h4⟩

/-- **C100, without constants.** If the ball contains a point at which the linear matrix inequality holds strictly, then with a small enough tolerance and a large enough iteration limit, both independent of the state, the run of
the text returns such a point. -/
theorem C100_lmi_finds (hq : 2 ≤ q) {matF : Fin q → Mat m} {matB : Mat m} (hF : ∀ k, (matF k).IsSymm) (hB : matB.IsSymm) {x : Vec q} {R : ℝ} (hR : 0 < R) {y0 : Vec q} (hy0 : y0 ∈ ball x R)
    (hpos : QuadPos (lmiMat matF matB y0)) : ∃ (N : ℕ) (tol : ℝ), 0 < tol ∧ ∀ (W : Type) (ext : ℕ → String → List Val → M W Val) (fuel : ℕ) (st : St W) (lf : Fin q → ℕ) (lb lx : ℕ) (vopt : Val) (opts : Options ℝ),
      MatsAt st lf matF (some (lb, matB)) → st.heap lx = some (.vec q x) → lx < st.next → OptionsAt Arith.exact st vopt opts → (∀ k, vopt = .ref k → k < st.next) → N ≤ opts.maxIters → opts.tolerance ≤ tol →
      ∃ s0 s1 s2 k y, call (mach Arith.exact ext) (fuel + 3) (.glob "LMIOracle") [.list (List.ofFn fun k => .ref (lf k)), .ref lb] st = .ok (.ref st.next) s0
        ∧ call (mach Arith.exact ext) (fuel + 3) (.glob "Ell") [.num (R ^ 2), .ref lx] s0 = .ok (.ref s0.next) s1
        ∧ call (mach Arith.exact ext) (fuel + 8) (.glob "cutting_plane_feas") [.ref st.next, .ref s0.next, vopt] s1 = .ok (.tuple [.ref lx, .int (k : ℕ)]) s2
        ∧ s2.heap lx = some (.vec q y) ∧ QuadPos (lmiMat matF matB y) ∧ k ≤ N := by
  obtain ⟨μ, hμ, h1⟩ := exists_lower _ hpos
  obtain ⟨e, he⟩ := (C60_init_rejects (.scalar (R ^ 2)) x).2 hq
  obtain ⟨hw, hreg, -⟩ := init_ball hR he
  obtain ⟨Λ, hΛ, h2⟩ := exists_uniform_lower hw (M := lmiMat matF matB) (by
    refine continuous_matrix fun i j => ?_
    simp only [lmiMat, Matrix.sub_apply, Matrix.sum_apply, Matrix.smul_apply, smul_eq_mul]
    fun_prop)
  rw [hreg] at h2
  obtain ⟨N, hN⟩ := exists_nat_gt (2 * q * ((q : ℝ) + 1) * Real.log ((μ + Λ) / μ))
  refine ⟨N, μ ^ 2, by positivity, fun W ext fuel st lf lb lx vopt opts hm hx hltx hopt hlt hmax htol => ?_⟩
  obtain ⟨s0, s1, h3, h4, h5⟩ := C100_lmi (ext := ext) (fuel := fuel) hq hF hB hm hopt hlt hx hltx hR
  obtain ⟨s2, k, y, h6, h7, h8, h9⟩ := h5.finds y0 hy0 μ Λ hμ hΛ h1 h2 (hN.trans_le (by exact_mod_cast hmax)) htol
  exact ⟨s0, s1, s2, k, y, h3, h4, h6, h7, h8, by exact_mod_cast (h9.trans_lt hN).le⟩

end

/-! ### Floating point -/

section

variable {A : Arith} {ext : ℕ → String → List Val → M W Val} {fuel : ℕ} {D : LmiCells m q} {u γ : ℝ}

/-- What a call of `assess_feas` of the text returns: `None` or a tuple of a new array and a float, as `LmiAnswer` says; it does not raise; only locations of the `LDLTMgr` change. -/
structure LmiReply (D : LmiCells m q) (matF : Fin q → Mat m) (matB : Mat m) (x : Vec q) (γ : ℝ) (st : St W) (r : Res W Val) : Prop where
  reply : ∃ w st' o ans, r = .ok w st' ∧ LmiAt D st' o ∧ LmiAnswer matF matB x γ (o, .ok ans) ∧ (∀ k < st.next, ¬ D.own k → st'.heap k = st.heap k)
    ∧ match ans with
      | none => w = .none
      | some (g, ep) => ∃ lg, w = .tuple [.ref lg, .num ep] ∧ st'.heap lg = some (.vec q g) ∧ lg < st'.next

theorem reply_of {D : LmiCells m q} {matF : Fin q → Mat m} {matB : Mat m} {omega : OracleFeas (LDLTMgr ℝ) (Vec q) (Cut q)} (hQ : FeasOracle A ext fuel (.ref D.l) (fun _ => D.own) omega (LmiAt D (W := W)))
    {st : St W} {o : LDLTMgr ℝ} (h : LmiAt D st o) {lx : ℕ} {x : Vec q} (hx : st.heap lx = some (.vec q x)) (hlx : lx < st.next) {r : LDLTMgr ℝ × Except Fault (Option (Vec q × ℝ))}
    (hr : omega o x = (r.1, r.2.map fun r => r.map fun c => (c.1, .scalar c.2))) (ha : LmiAnswer matF matB x γ r) :
    LmiReply D matF matB x γ st (call (mach A ext) fuel (.meth (.ref D.l) "assess_feas") [.ref lx] st) := by
  have h1 := hQ.assess h hx hlx
  obtain ⟨o', r2⟩ := r
  obtain ⟨-, ans, h2⟩ := ha.runs
  simp only at h2
  subst h2
  rw [hr] at h1
  rcases ans with _ | ⟨g, ep⟩
  · simp only [Except.map, Option.map_none] at h1
    obtain ⟨st', h3, h4, h5⟩ := h1
    exact ⟨⟨_, st', o', none, h3, h4, ha, fun k hk hn => h5.1.same k hk hn, rfl⟩⟩
  · simp only [Except.map, Option.map_some] at h1
    obtain ⟨w, st', h3, h4, h5, ⟨lg, vb, rfl, h6, h7, h8⟩, -⟩ := h1
    refine ⟨⟨_, st', o', some (g, ep), h3, h4, ha, fun k hk hn => h5.1.same k hk hn, lg, ?_, h7, h6⟩⟩
    cases h8
    rfl

/-- **C100.** One call of `assess_feas` of `LMIOracle`, of the text, in floating-point arithmetic. -/
theorem C100_lmi_float (hA : Literals A) (hc : D.cls = "LMIOracle") {lb : ℕ} {matB : Mat m} (hb : D.b = some (lb, matB)) (hF : ∀ k, (D.matF k).IsSymm) (hB : matB.IsSymm) (hacc : A.Accurate u γ m) (hu : 0 ≤ u) (huγ : u ≤ γ)
    (hγ : 10 * m * γ ≤ 1) (hq : (1 + u) ^ (q + 1) - 1 ≤ γ) {st : St W} {o : LDLTMgr ℝ} (h : LmiAt D st o) {lx : ℕ} {x : Vec q} (hx : st.heap lx = some (.vec q x)) (hlx : lx < st.next) :
    LmiReply D D.matF matB x γ st (call (mach A ext) (fuel + 4) (.meth (.ref D.l) "assess_feas") [.ref lx] st) :=
  reply_of (lmi_assess hA hc hb) h hx hlx rfl (C93_lmi hF hB o h.dim hacc hu huγ hγ hq x)

/-- **C100.** The same for `LMIOldOracle`. -/
theorem C100_lmi_old_float (hA : Literals A) (hc : D.cls = "LMIOldOracle") {lb : ℕ} {matB : Mat m} (hb : D.b = some (lb, matB)) (hF : ∀ k, (D.matF k).IsSymm) (hB : matB.IsSymm) (hacc : A.Accurate u γ m) (hu : 0 ≤ u)
    (huγ : u ≤ γ) (hγ : 10 * m * γ ≤ 1) (hq : (1 + u) ^ (q + 1) - 1 ≤ γ) {st : St W} {o : LDLTMgr ℝ} (h : LmiAt D st o) {lx : ℕ} {x : Vec q} (hx : st.heap lx = some (.vec q x)) (hlx : lx < st.next) :
    LmiReply D D.matF matB x γ st (call (mach A ext) (fuel + 4) (.meth (.ref D.l) "assess_feas") [.ref lx] st) :=
  reply_of (lmiOld_assess hA hc hb) h hx hlx rfl (C93_lmi_old hF hB o h.dim hacc hu huγ hγ hq x)

/-- **C100.** The same for `LMI0Oracle`, with `Σ x_k mat_f[k]`. -/
theorem C100_lmi0_float (hA : Literals A) (hc : D.cls = "LMI0Oracle") (hF : ∀ k, (D.matF k).IsSymm) (hacc : A.Accurate u γ m) (hu : 0 ≤ u)
    (huγ : u ≤ γ) (hγ : 10 * m * γ ≤ 1) (hq : (1 + u) ^ (q + 1) - 1 ≤ γ) {st : St W} {o : LDLTMgr ℝ} (h : LmiAt D st o) {lx : ℕ} {x : Vec q} (hx : st.heap lx = some (.vec q x)) (hlx : lx < st.next) :
    LmiReply D (fun k => -D.matF k) 0 x γ st (call (mach A ext) (fuel + 4) (.meth (.ref D.l) "assess_feas") [.ref lx] st) :=
  reply_of (lmi0_assess hA hc) h hx hlx rfl (C93_lmi0 hF o h.dim hacc hu huγ hγ hq x)

end

/-! ### The hypotheses can be met -/

/-- Two matrices, a third, a point, `Options()`. -/
noncomputable def lmiHeap : St Unit := ⟨fun k => if k = 0 then some (.mat 2 2 ![![-1, 0], ![0, 0]]) else if k = 1 then some (.mat 2 2 ![![0, 1], ![1, 0]]) else if k = 2 then some (.mat 2 2 ![![-1 / 4, 0], ![0, 1]])
  else if k = 3 then some (.vec 2 ![0, 0]) else if k = 4 then some (.inst "Options" Env.empty) else none, 5, ()⟩

def lmiHeapF : Fin 2 → Mat 2 := ![!![-1, 0; 0, 0], !![0, 1; 1, 0]]
noncomputable def lmiHeapB : Mat 2 := !![-1 / 4, 0; 0, 1]

theorem lmiHeap_at : MatsAt lmiHeap (fun k : Fin 2 => (k : ℕ)) lmiHeapF (some (2, lmiHeapB)) where
  F k := by rw [square_toArr2]; fin_cases k <;> rfl
  B p hp := by cases hp; rw [square_toArr2]; rfl
  ltF k := by have := k.2; simp only [lmiHeap]; omega
  ltB p hp := by cases hp; decide

theorem lmiHeap_options : OptionsAt Arith.exact lmiHeap (.ref 4) ⟨2000, 1 / 10 ^ 20⟩ := ⟨4, Env.empty, rfl, rfl, .inr ⟨rfl, rfl⟩, .inr ⟨rfl, by simp [literal, Arith.exact]⟩⟩

theorem lmiHeap_symm : (∀ k, (lmiHeapF k).IsSymm) ∧ lmiHeapB.IsSymm :=
  ⟨fun k => by ext i j; fin_cases k <;> fin_cases i <;> fin_cases j <;> rfl, by ext i j; fin_cases i <;> fin_cases j <;> rfl⟩

theorem lmiHeap_quad (y : Vec 2) (v : Fin 2 → ℝ) : v ⬝ᵥ (lmiMat lmiHeapF lmiHeapB y *ᵥ v) = (y 0 - 1 / 4) * (v 0 * v 0) - 2 * y 1 * (v 0 * v 1) + v 1 * v 1 := by
  rw [quad_lmi]
  simp [lmiHeapF, lmiHeapB, dotProduct, mulVec, Fin.sum_univ_two]; ring

/-- With the text of the files, `cutting_plane_feas(LMIOracle([F0, F1], B), Ell(1, x), Options())` finds a point for `[[y₀ - 1/4, -y₁], [-y₁, 1]] ≻ 0` in the unit disc; the centre of the disc is not one. -/
example : ∃ (s0 s1 s2 : St Unit) (k : ℕ) (y : Vec 2), call (mach Arith.exact fun _ _ _ => M.exc "TypeError") 3 (.glob "LMIOracle") [.list [.ref 0, .ref 1], .ref 2] lmiHeap = .ok (.ref 5) s0
    ∧ call (mach Arith.exact fun _ _ _ => M.exc "TypeError") 3 (.glob "Ell") [.num (1 ^ 2), .ref 3] s0 = .ok (.ref s0.next) s1
    ∧ call (mach Arith.exact fun _ _ _ => M.exc "TypeError") 8 (.glob "cutting_plane_feas") [.ref 5, .ref s0.next, .ref 4] s1 = .ok (.tuple [.ref 3, .int k]) s2
    ∧ s2.heap 3 = some (.vec 2 y) ∧ QuadPos (lmiMat lmiHeapF lmiHeapB y) := by
  obtain ⟨s0, s1, h1, h2, h3⟩ := C100_lmi (ext := fun _ _ _ => M.exc "TypeError") (fuel := 0) le_rfl lmiHeap_symm.1 lmiHeap_symm.2 lmiHeap_at lmiHeap_options (by rintro k ⟨⟩; decide) (lx := 3) (x := ![0, 0]) rfl (by decide)
    one_pos
  obtain ⟨s2, k, y, h4, h5, h6, -⟩ := h3.finds ![1 / 2, 0] (by norm_num [ball, dotProduct, Fin.sum_univ_two]) (1 / 4) (9 / 4) (by norm_num) (by norm_num) (fun v => by
    rw [lmiHeap_quad]
    simp only [dotProduct, Fin.sum_univ_two]
    norm_num
    nlinarith [mul_self_nonneg (v 1)]) (fun y hy v => by
    simp [ball, dotProduct, Fin.sum_univ_two] at hy
    rw [lmiHeap_quad]
    simp only [dotProduct, Fin.sum_univ_two]
    have a1 : -1 ≤ y 0 := by nlinarith [mul_self_nonneg (y 1), mul_self_nonneg (y 0 + 1)]
    have a2 : y 1 * y 1 ≤ 1 := by nlinarith [mul_self_nonneg (y 0)]
    nlinarith [mul_self_nonneg (v 0 - y 1 * v 1), mul_self_nonneg (v 0), mul_self_nonneg (v 1), mul_nonneg (show 0 ≤ y 0 + 1 by linarith) (mul_self_nonneg (v 0)),
      mul_nonneg (show 0 ≤ 1 - y 1 * y 1 by linarith) (mul_self_nonneg (v 1))]) (by
    have := Real.log_le_sub_one_of_pos (x := 10) (by norm_num)
    norm_num
    linarith) (by norm_num)
  exact ⟨s0, s1, s2, k, y, h1, h2, h4, h5, h6⟩

/-- The hypotheses of `C100_lmi_old` and `C100_lmi0` on that heap. -/
example : ∃ s0 s1 s0' s1' : St Unit, Finds (lmiMat lmiHeapF lmiHeapB) ![0, 0] 1 ⟨2000, 1 / 10 ^ 20⟩ 3 (call (mach Arith.exact fun _ _ _ => M.exc "TypeError") 8 (.glob "cutting_plane_feas") [.ref 5, .ref s0.next, .ref 4] s1)
    ∧ Finds (lmi0Mat lmiHeapF) ![0, 0] 1 ⟨2000, 1 / 10 ^ 20⟩ 3 (call (mach Arith.exact fun _ _ _ => M.exc "TypeError") 8 (.glob "cutting_plane_feas") [.ref 5, .ref s0'.next, .ref 4] s1') := by
  obtain ⟨s0, s1, -, -, h3⟩ := C100_lmi_old (ext := fun _ _ _ => M.exc "TypeError") (fuel := 0) le_rfl lmiHeap_symm.1 lmiHeap_symm.2 lmiHeap_at lmiHeap_options (by rintro k ⟨⟩; decide) (lx := 3) (x := ![0, 0]) rfl
    (by decide) one_pos
  obtain ⟨s0', s1', -, -, h4⟩ := C100_lmi0 (ext := fun _ _ _ => M.exc "TypeError") (fuel := 0) le_rfl lmiHeap_symm.1 (st := lmiHeap) (lf := fun k : Fin 2 => (k : ℕ)) ⟨lmiHeap_at.F, nofun, lmiHeap_at.ltF, nofun⟩ lmiHeap_options
    (by rintro k ⟨⟩; decide) (lx := 3) (x := ![0, 0]) rfl (by decide) one_pos
  exact ⟨s0, s1, s0', s1', h3, h4⟩

/-- The hypotheses of `C100_lmi_float` in double precision, on that heap after `LMIOracle([F0, F1], B)`. -/
example : ∃ (s0 : St Unit) (D : LmiCells 2 2), call (mach (Arith.ieee 53) fun _ _ _ => M.exc "TypeError") 3 (.glob "LMIOracle") [.list [.ref 0, .ref 1], .ref 2] lmiHeap = .ok (.ref 5) s0
    ∧ LmiReply D lmiHeapF lmiHeapB ![0, 0] ((1 + 2⁻¹ ^ 53) ^ 3 - 1) s0 (call (mach (Arith.ieee 53) fun _ _ _ => M.exc "TypeError") 4 (.meth (.ref D.l) "assess_feas") [.ref 3] s0) := by
  obtain ⟨s0, lm, lw, ls, h1, h2, -, hf⟩ := lmi_init (A := Arith.ieee 53) (ext := fun _ _ _ => M.exc "TypeError") (fuel := 0) lmiHeap_at
  exact ⟨s0, _, h1, C100_lmi_float (fuel := 0) literals_double rfl rfl lmiHeap_symm.1 lmiHeap_symm.2 (Arith.ieee_accurate 53 2) (by positivity) (by norm_num) (by norm_num) (by norm_num) h2 (lx := 3) (x := ![0, 0])
    (hf.same 3 (by decide) not_false) (lt_of_lt_of_le (by decide : 3 < 5) hf.next)⟩

end Ellalgo.Py
