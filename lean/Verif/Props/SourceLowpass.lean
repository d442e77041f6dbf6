import Verif.Py.Refine.Lowpass
import Verif.Props.SourceProfit
import Verif.Props.Lowpass

/-!
# Properties of the text of `lowpass_oracle.py`

The constructor, the two methods and `create_lowpass_case`, then `Ell` or `EllStable` and the loops `cutting_plane_feas` and `cutting_plane_optim`, all of them run from the text of their files.
-/

namespace Ellalgo.Py

open Matrix Spec CuttingPlane LowpassOracle

variable {W : Type} {n m : ℕ}

/-- What the caller has besides the oracle: the first point in an array, and options. -/
structure Start (A : Arith) (st : St W) (lx : ℕ) (x : Vec n) (vopt : Val) (opts : Options ℝ) : Prop where
  point : st.heap lx = some (.vec n x)
  ltx : lx < st.next
  options : OptionsAt A st vopt opts
  optlt : ∀ k, vopt = .ref k → k < st.next

section

variable {A : Arith} {st : St W} {lx : ℕ} {x : Vec (m + 1)} {vopt : Val} {opts : Options ℝ} {ext : ℕ → String → List Val → M W Val} {fuel : ℕ}

theorem Start.mono {s0 : St W} {x : Vec n} (h : Start A st lx x vopt opts) (hf : Frame (fun _ => False) st s0) : Start A s0 lx x vopt opts :=
  ⟨(hf.same lx h.ltx not_false).trans h.point, h.ltx.trans_le hf.next, h.options.mono fun k _ hk _ => hf.same k (h.optlt k hk) not_false, fun k hk => (h.optlt k hk).trans_le hf.next⟩

theorem lowOwn_old {l lsp : ℕ} {s0 : St W} (h : lx < st.next) (hl : st.next ≤ l) (hs : st.next ≤ lsp) : ¬ lowOwn l lsp s0 lx := by
  rintro (rfl | rfl) <;> omega

/-- What `cutting_plane_feas` gives, if the model gives `r`: the exception of the model, or the pair of the model; the point is the array of the centre. -/
def FeasRun (lx : ℕ) (r : Except Fault (Option (Vec n) × ℕ)) (c : Vec n) (res : Res W Val) : Prop :=
  ∃ st', st'.heap lx = some (.vec n c) ∧
    match r with
    | .error f => res = .exc (excOf f) st'
    | .ok (none, k) => res = .ok (.tuple [.none, .int k]) st'
    | .ok (some y, k) => res = .ok (.tuple [.ref lx, .int k]) st' ∧ c = y

/-- **C105.** `LowpassOracle(ndim, wpass, wstop, lp_sq, up_sq, sp_sq)`, `Ell(val, x)` or `EllStable(val, x)`, and `cutting_plane_optim`, run from the text, in any arithmetic with rounding: they give what the model of this arithmetic
gives, if there is a sampled frequency in the stopband. -/
theorem C105_optim (hA : Literals A) (hn : A.rnd ((m + 1 : ℕ) : ℝ) = ((m + 1 : ℕ) : ℝ)) (D : Start A st lx x vopt opts) (wpass wstop lp up sp : ℝ) (hp : 0 ≤ A.mul wpass (A.rnd ((15 * (m + 1) - 1 : ℤ) : ℝ)))
    (hs : 0 ≤ A.mul wstop (A.rnd ((15 * (m + 1) - 1 : ℤ) : ℝ))) (hstop : A.lowEdge (15 * (m + 1)) wstop < 15 * (m + 1)) {val : InitVal (m + 1)} {w : Val} (hv : IsInit A st val w) {g : ℝ} {vg : Val} (hg : IsNum A g vg) :
    ∃ s0, call (mach A ext) (fuel + 2) (.glob "LowpassOracle") [.int ((m + 1 : ℕ) : ℤ), .num wpass, .num wstop, .num lp, .num up, .num sp] st = .ok (.ref st.next) s0 ∧
      (∀ e, A.ellInit val x = .ok e → ∃ s1, call (mach A ext) (fuel + 3) (.glob "Ell") [w, .ref lx] s0 = .ok (.ref s0.next) s1 ∧
        Outcome (IsNum A) lx (optim A.lowOptim (A.space (m + 1)) ltReal (A.lowInit (m + 1) wpass wstop lp up sp) e g opts).2.1.xc (optim A.lowOptim (A.space (m + 1)) ltReal (A.lowInit (m + 1) wpass wstop lp up sp) e g opts).2.2
          (call (mach A ext) (fuel + 8) (.glob "cutting_plane_optim") [.ref st.next, .ref s0.next, vg, vopt] s1)) ∧
      (∀ e, A.stableInit val x = .ok e → ∃ s1, call (mach A ext) (fuel + 3) (.glob "EllStable") [w, .ref lx] s0 = .ok (.ref s0.next) s1 ∧
        Outcome (IsNum A) lx (optim A.lowOptim (A.stableSpace (m + 1)) ltReal (A.lowInit (m + 1) wpass wstop lp up sp) e g opts).2.1.xc (optim A.lowOptim (A.stableSpace (m + 1)) ltReal (A.lowInit (m + 1) wpass wstop lp up sp) e g opts).2.2
          (call (mach A ext) (fuel + 8) (.glob "cutting_plane_optim") [.ref st.next, .ref s0.next, vg, vopt] s1)) := by
  obtain ⟨s0, h1, h2, hf⟩ := low_init (A := A) (ext := ext) (fuel := fuel) (st := st) wpass wstop lp up sp hp hs
  have D' := D.mono hf
  exact ⟨s0, h1, source_optim (fuel := fuel) hA hn (low_oracle (fuel := fuel + 4) hA st.next (st.next + 7)) ⟨h2, hstop⟩ D'.options D'.optlt (hv.mono hf) D'.point D'.ltx (lowOwn_old D.ltx le_rfl (by omega)) hg⟩

/-- **C105.** The same with `cutting_plane_feas`. -/
theorem C105_feas (hA : Literals A) (hn : A.rnd ((m + 1 : ℕ) : ℝ) = ((m + 1 : ℕ) : ℝ)) (D : Start A st lx x vopt opts) (wpass wstop lp up sp : ℝ) (hp : 0 ≤ A.mul wpass (A.rnd ((15 * (m + 1) - 1 : ℤ) : ℝ)))
    (hs : 0 ≤ A.mul wstop (A.rnd ((15 * (m + 1) - 1 : ℤ) : ℝ))) {val : InitVal (m + 1)} {w : Val} (hv : IsInit A st val w) :
    ∃ s0, call (mach A ext) (fuel + 2) (.glob "LowpassOracle") [.int ((m + 1 : ℕ) : ℤ), .num wpass, .num wstop, .num lp, .num up, .num sp] st = .ok (.ref st.next) s0 ∧
      (∀ e, A.ellInit val x = .ok e → ∃ s1, call (mach A ext) (fuel + 3) (.glob "Ell") [w, .ref lx] s0 = .ok (.ref s0.next) s1 ∧
        FeasRun lx (feas A.lowFeas (A.space (m + 1)) ltReal (A.lowInit (m + 1) wpass wstop lp up sp) e opts).2.2 (feas A.lowFeas (A.space (m + 1)) ltReal (A.lowInit (m + 1) wpass wstop lp up sp) e opts).2.1.xc
          (call (mach A ext) (fuel + 8) (.glob "cutting_plane_feas") [.ref st.next, .ref s0.next, vopt] s1)) ∧
      (∀ e, A.stableInit val x = .ok e → ∃ s1, call (mach A ext) (fuel + 3) (.glob "EllStable") [w, .ref lx] s0 = .ok (.ref s0.next) s1 ∧
        FeasRun lx (feas A.lowFeas (A.stableSpace (m + 1)) ltReal (A.lowInit (m + 1) wpass wstop lp up sp) e opts).2.2 (feas A.lowFeas (A.stableSpace (m + 1)) ltReal (A.lowInit (m + 1) wpass wstop lp up sp) e opts).2.1.xc
          (call (mach A ext) (fuel + 8) (.glob "cutting_plane_feas") [.ref st.next, .ref s0.next, vopt] s1)) := by
  obtain ⟨s0, h1, h2, hf⟩ := low_init (A := A) (ext := ext) (fuel := fuel) (st := st) wpass wstop lp up sp hp hs
  have D' := D.mono hf
  have hox : ¬ lowOwn (W := W) st.next (st.next + 7) s0 lx := lowOwn_old D.ltx le_rfl (by omega)
  have hF : ∀ {free}, FeasOracle A ext (fuel + 7) (.ref st.next) (lowOwn (W := W) st.next (st.next + 7)) (A.lowFeas (n := m + 1)) (LowAt A st.next (st.next + 7)) free := low_feas_oracle (fuel := fuel + 5) hA _ _
  refine ⟨s0, h1, fun e he => ?_, fun e he => ?_⟩
  · obtain ⟨s1, lm, h3, h4⟩ := ready_init (ext := ext) (fuel := fuel) hA hn (hF (free := True)).toOracleAt h2 D'.options D'.optlt (hv.mono hf) D'.point D'.ltx hox he
    obtain ⟨s2, h5, h6, h7⟩ := C98_feas hA hF h4
    refine ⟨s1, h3, s2, h6.ell.xc, ?_⟩
    rcases hr : (feas A.lowFeas (A.space (m + 1)) ltReal (A.lowInit (m + 1) wpass wstop lp up sp) e opts).2.2 with f | ⟨_ | y, k⟩ <;> rw [hr] at h5 h7 <;> dsimp only at h5 ⊢
    · exact h5
    · exact h5
    · refine ⟨h5, ?_⟩
      have := h6.ell.xc.symm.trans (h7 y k rfl)
      simpa using this
  · obtain ⟨s1, lm, h3, h4⟩ := stableReady_init (ext := ext) (fuel := fuel) hA hn (hF (free := False)).toOracleAt h2 D'.options D'.optlt (hv.mono hf) D'.point D'.ltx hox he
    obtain ⟨s2, h5, h6, h7⟩ := C101_feas hA hF h4
    refine ⟨s1, h3, s2, h6.ell.xc, ?_⟩
    rcases hr : (feas A.lowFeas (A.stableSpace (m + 1)) ltReal (A.lowInit (m + 1) wpass wstop lp up sp) e opts).2.2 with f | ⟨_ | y, k⟩ <;> rw [hr] at h5 h7 <;> dsimp only at h5 ⊢
    · exact h5
    · exact h5
    · refine ⟨h5, ?_⟩
      have := h6.ell.xc.symm.trans (h7 y k rfl)
      simpa using this

end

/-! ### In exact arithmetic -/

section

variable {d : LowpassDesign} {st : St W} {l lsp lx : ℕ} {vopt : Val} {opts : Options ℝ} {ext : ℕ → String → List Val → M W Val} {fuel : ℕ}

/-- The object at `l` is an oracle of the design `d` with `n` coefficients, and the stopband bound in force is `sp`. -/
def DesignAt (n : ℕ) (d : LowpassDesign) (sp : ℝ) (l lsp : ℕ) (st : St W) : Prop := ∃ o : LowpassOracle n, LowAt Arith.exact l lsp st o ∧ Good d o ∧ o.spSq = sp

theorem isNum_exact {g : ℝ} {v : Val} : IsNum Arith.exact g v ↔ v.toReal = some g := by
  cases v <;> simp [IsNum, Val.toFloat, Val.toReal, Arith.exact]

theorem edge_nonneg {w : ℝ} (h : 0 ≤ w) (m : ℕ) : 0 ≤ Arith.exact.mul w (Arith.exact.rnd ((15 * (m + 1) - 1 : ℤ) : ℝ)) := by
  refine mul_nonneg h ?_
  show (0 : ℝ) ≤ ((15 * (m + 1) - 1 : ℤ) : ℝ)
  push_cast
  linarith [(Nat.cast_nonneg m : (0 : ℝ) ≤ m)]

/-- **C105.** The constructor makes an oracle of the design, without touching the arrays of the caller. -/
theorem C105_init (hd : d.Proper) (sp : ℝ) :
    ∃ s0, call (mach Arith.exact ext) (fuel + 2) (.glob "LowpassOracle") [.int ((m + 1 : ℕ) : ℤ), .num d.wpass, .num d.wstop, .num d.lpSq, .num d.upSq, .num sp] st = .ok (.ref st.next) s0
      ∧ DesignAt (m + 1) d sp st.next (st.next + 7) s0 ∧ Frame (fun _ => False) st s0 := by
  obtain ⟨s0, h1, h2, h3⟩ := low_init (A := Arith.exact) (ext := ext) (fuel := fuel) (st := st) d.wpass d.wstop d.lpSq d.upSq sp (edge_nonneg hd.wpass_nonneg m) (edge_nonneg hd.wstop_nonneg m)
  rw [Arith.exact_lowInit (Nat.succ_pos m)] at h2
  exact ⟨s0, h1, ⟨_, h2, init_good (m + 1) d sp, rfl⟩, h3⟩

/-- **C105.** `assess_feas(x)` of the text, on any oracle of a design, with any bound in force and any scanning positions: it never raises; the answer is `None` exactly for the points that meet the whole sampled specification; otherwise it is a
cut with a new array, violated at `x`, kept by every point that meets the specification, with a gradient of length at least 1. Only the object itself is written to, and it stays an oracle of the same design and bound. -/
theorem C105_assess_feas (hn : 0 < n) (hd : d.Proper) {sp : ℝ} (h : DesignAt n d sp l lsp st) {x : Vec n} (hx : st.heap lx = some (.vec n x)) (hlx : lx < st.next) :
    ∃ s1, DesignAt n d sp l lsp s1 ∧ Frame (· = l) st s1 ∧
      ((x ∈ d.Feasible n sp ∧ call (mach Arith.exact ext) (fuel + 2) (.meth (.ref l) "assess_feas") [.ref lx] st = .ok .none s1) ∨
       (x ∉ d.Feasible n sp ∧ ∃ w cut, call (mach Arith.exact ext) (fuel + 2) (.meth (.ref l) "assess_feas") [.ref lx] st = .ok w s1 ∧ NewCut st s1 cut w ∧
          ViolatedValid (d.Feasible n sp) x cut ∧ 1 ≤ cut.1 ⬝ᵥ cut.1)) := by
  obtain ⟨o, h1, h2, rfl⟩ := h
  have hr := low_feas (ext := ext) (fuel := fuel) literals_exact h1 hx hlx
  rw [Arith.exact_lowFeas] at hr
  obtain ⟨g1, g2, g3⟩ := assessFeas_ok h2 hd hn x
  rcases ha : assessFeas o x with ⟨o1, r⟩
  rw [ha] at hr g1 g2 g3
  rcases g3 with ⟨g3, rfl, -⟩ | ⟨g3, cut, rfl, g4⟩
  · obtain ⟨s1, h3, h4, h5⟩ := hr
    exact ⟨s1, ⟨o1, h4, g1, g2⟩, h5, .inl ⟨g3, h3⟩⟩
  · obtain ⟨s1, w, h3, h4, h5, h6⟩ := hr
    exact ⟨s1, ⟨o1, h5, g1, g2⟩, h6, .inr ⟨g3, w, cut, h3, h4, g4⟩⟩

/-- **C105.** `assess_optim(x, γ)` of the text, for a design with a stopband: it never raises; for a point that is feasible for `γ` it answers the largest stopband response `γ1 ≤ γ` with a cut with offsets `(0, γ1)` that keeps every design that is
feasible for `γ1`; for any other point it answers a cut that is violated at `x` and keeps every design feasible for `γ`. Afterwards the bound in force is `γ`. -/
theorem C105_assess_optim (hn : 0 < n) (hd : d.Proper) (hw : d.wstop < 1) {sp : ℝ} (h : DesignAt n d sp l lsp st) {x : Vec n} (hx : st.heap lx = some (.vec n x)) (hlx : lx < st.next) {γ : ℝ} {vg : Val} (hg : vg.toReal = some γ) :
    ∃ s1 w cut, DesignAt n d γ l lsp s1 ∧ Frame (· = l) st s1 ∧ NewCut st s1 cut w ∧
      ((x ∈ d.Feasible n γ ∧ ∃ γ1, call (mach Arith.exact ext) (fuel + 3) (.meth (.ref l) "assess_optim") [.ref lx, vg] st = .ok (.tuple [w, .num γ1]) s1 ∧ d.IsStopMax x γ1 ∧ γ1 ≤ γ ∧
          ∀ y ∈ d.Feasible n γ1, cut.1 ⬝ᵥ (y - x) ≤ 0 ∧ 0 ≤ cut.1 ⬝ᵥ (y - x) + γ1 ∧ cut.2 = .pair 0 γ1) ∨
       (x ∉ d.Feasible n γ ∧ call (mach Arith.exact ext) (fuel + 3) (.meth (.ref l) "assess_optim") [.ref lx, vg] st = .ok (.tuple [w, .none]) s1 ∧ ViolatedValid (d.Feasible n γ) x cut)) := by
  obtain ⟨o, h1, h2, rfl⟩ := h
  have hr := low_optim (ext := ext) (fuel := fuel) literals_exact h1 ((nwstop_lt_iff h2 hd hn).mpr hw) hx hlx (isNum_exact.mpr hg)
  rw [Arith.exact_lowOptim] at hr
  obtain ⟨g1, g2, g3⟩ := assessOptim_ok h2 hd hn x γ
  rcases ha : assessOptim o x γ with ⟨o1, r⟩
  rw [ha] at hr g1 g2 g3
  rcases g3 with ⟨hx, -, k, k1, k2, k3, rfl⟩ | ⟨-, hc, -⟩ | ⟨hx, cut, rfl, g4, -⟩
  · obtain ⟨s1, w, h3, h4, h5, h6⟩ := hr
    have hm := h2.mdim
    have hk : k < 15 * n := by omega
    have hks := (h2.stop_iff hd hn k).mp k1
    refine ⟨s1, w, _, ⟨o1, h5, g1, g2⟩, h6, h4, .inl ⟨hx, _, h3, ⟨⟨k, hk, hks, h2.dot k x⟩, fun i hi hi2 => ?_⟩, ?_, fun y hy => ?_⟩⟩
    · have := k3 i ((h2.stop_iff hd hn i).mpr hi2) (by omega)
      rwa [h2.dot i] at this
    · rw [h2.dot k]
      exact hx.2 k hk hks
    · have e1 := hy.2 k hk hks
      have e2 := hy.1.stop k hk hks
      rw [← h2.dot k] at e1 e2
      refine ⟨?_, ?_, rfl⟩ <;> rw [dotProduct_sub] <;> linarith
  · exact absurd hc hw.ne
  · obtain ⟨s1, w, h3, h4, h5, h6⟩ := hr
    exact ⟨s1, w, cut, ⟨o1, h5, g1, g2⟩, h6, h4, .inr ⟨hx, h3, g4⟩⟩

/-! ### Whole runs in exact arithmetic -/

/-- `assess_feas` with a fixed bound. -/
theorem lowpass_feas_regular (hn : 0 < n) (hd : d.Proper) (sp : ℝ) : RegularOracle (fun o : LowpassOracle n => Good d o ∧ o.spSq = sp) (d.Feasible n sp) assessFeas where
  inv o x ho := ⟨(assessFeas_ok ho.1 hd hn x).1, (assessFeas_ok ho.1 hd hn x).2.1.trans ho.2⟩
  cut o x o' cut ho h := by
    obtain ⟨ho, rfl⟩ := ho
    have := (assessFeas_ok ho hd hn x).2.2
    rw [h] at this
    rcases this with ⟨-, h2, -⟩ | ⟨-, c, h2, h3, -⟩
    · simp at h2
    · simp only [Except.ok.injEq, Option.some.injEq] at h2
      subst h2
      exact h3.deep.2
  accept o x o' ho h := by
    obtain ⟨ho, rfl⟩ := ho
    have := (assessFeas_ok ho hd hn x).2.2
    rw [h] at this
    rcases this with ⟨h1, -⟩ | ⟨-, c, h2, -⟩
    · exact h1
    · simp at h2
  total o x o' f ho h := by
    have := (assessFeas_ok ho.1 hd hn x).2.2
    rw [h] at this
    rcases this with ⟨-, h2, -⟩ | ⟨-, c, h2, -⟩ <;> simp at h2
  shape o x o' cut ho h := by
    obtain ⟨ho, rfl⟩ := ho
    have := (assessFeas_ok ho hd hn x).2.2
    rw [h] at this
    rcases this with ⟨-, h2, -⟩ | ⟨-, c, h2, h3, h4⟩
    · simp at h2
    · simp only [Except.ok.injEq, Option.some.injEq] at h2
      subst h2
      exact ⟨h3.deep.1, h4⟩

/-- C23 for `EllStable`: if the feasible set contains a ball of radius `r` and the tolerance is at most `r²`, `cutting_plane_feas` with `EllStable(R², x0)` finds a point as soon as it does with `Ell(R², x0)`. -/
theorem stable_feas_converges {O : Type} {omega : OracleFeas O (Vec n) (Cut n)} {I : O → Prop} {F : Set (Vec n)} (hω : RegularOracle I F omega) (o : O) (ho : I o) (x0 c : Vec n) (R r : ℝ) (hR : 0 < R) (hr : 0 < r)
    (s : EllStable n) (hs : EllStable.init (.scalar (R ^ 2)) x0 = .ok s) (hn : 2 ≤ n) (hF : F ⊆ ball x0 R) (hball : ball c r ⊆ F) (opts : Options ℝ) (htol : opts.tolerance ≤ r ^ 2)
    (hmax : 2 * n * ((n : ℝ) + 1) * Real.log (R / r) < opts.maxIters) :
    ∃ o' s' x k, feas omega (EllStable.space n) ltReal o s opts = (o', s', .ok (some x, k)) ∧ x ∈ F ∧ (k : ℝ) ≤ 2 * n * ((n : ℝ) + 1) * Real.log (R / r) := by
  obtain ⟨e, he⟩ := (C60_init_rejects (.scalar (R ^ 2)) x0).2 hn
  obtain ⟨w, hreg, -⟩ := init_ball hR he
  obtain ⟨w1, w2, s', h1, h2⟩ := init_refines (.scalar (R ^ 2)) (by positivity) x0 he
  obtain rfl : s = s' := by rw [hs] at h1; exact Except.ok.inj h1
  have hin : InStep s e := ⟨h2, w1, w2⟩
  obtain ⟨o', e', x, k, h3, h4, h5⟩ := C23_feas_converges hω o ho x0 c R r hR hr e he hF hball opts htol hmax
  rcases C74_feas_same_outcome hω.inv (fun o x o' cut hi ha => ⟨Ell.ne_zero_of_one_le (hω.shape o x o' cut hi ha).2, (hω.cut o x o' cut hi ha).1.pair⟩) o ho s e hin opts with ⟨-, l, o1, e1, o2, cut, t, a, hbad⟩ | ⟨ha, hb⟩
  · exfalso
    obtain ⟨w, hF1, -⟩ := t.regular hω hr hball ho w (by rw [hreg]; exact hF)
    have hi := t.inv_oracle hω.toCuttingOracle ho
    obtain ⟨g0, g1⟩ := hω.shape _ _ _ _ hi a
    obtain ⟨e2, hu, w2, -⟩ := Ell.regular_bias w hr hball hF1 g0 g1 (hω.cut _ _ _ _ hi a).2
    rw [hu] at hbad
    exact hbad w2
  · rw [h3] at ha hb
    exact ⟨o', _, x, k, Prod.ext ha (Prod.ext rfl hb), h4, h5⟩

theorem lowpass_usable (hn : 0 < n) (hd : d.Proper) (hw : d.wstop < 1) (o : LowpassOracle n) (x : Vec n) (γ : ℝ) (o' : LowpassOracle n) (cut : Cut n) (γ1 : Option ℝ) (ho : Good d o) (h : assessOptim o x γ = (o', .ok (cut, γ1))) : UsableCut cut := by
  have hreg := lowpass_regular hn d hd hw
  cases γ1 with
  | none => exact ⟨Ell.ne_zero_of_one_le (hreg.shape o x (OrderDual.toDual γ) o' cut ho h).2, (hreg.cut o x (OrderDual.toDual γ) o' cut ho h).1.pair⟩
  | some γ1 =>
    refine ⟨Ell.ne_zero_of_one_le (hreg.shapeCentral o x (OrderDual.toDual γ) o' cut (OrderDual.toDual γ1) ho h).2, ?_⟩
    have := (assessOptim_ok ho hd hn x γ).2.2
    rw [h] at this
    rcases this with ⟨-, -, k, -, -, -, h2⟩ | ⟨-, hc, -⟩ | ⟨-, c, h2, -⟩
    · simp only [Except.ok.injEq, Prod.mk.injEq] at h2
      rw [h2.1]
      exact le_rfl
    · exact absurd hc hw.ne
    · simp at h2

/-- C61 for `EllStable`. -/
theorem stable_filter_design (hn : 2 ≤ n) (hd : d.Proper) (hw : d.wstop < 1) (o : LowpassOracle n) (sp : ℝ) (ho : o = used n d sp []) (x0 c : Vec n) (R r : ℝ) (hR : 0 < R) (hr : 0 < r) (s : EllStable n)
    (hs : EllStable.init (.scalar (R ^ 2)) x0 = .ok s) (g0 γs : ℝ) (hF : d.Feasible n g0 ⊆ ball x0 R) (hg : γs < g0) (hball : ball c r ⊆ d.Feasible n γs) (opts : Options ℝ) (htol : opts.tolerance ≤ r ^ 2)
    (hmax : 2 * n * ((n : ℝ) + 1) * Real.log (R / r) < opts.maxIters) (o' : LowpassOracle n) (s' : EllStable n) (xb : Option (Vec n)) (γ : ℝ) (k : ℕ)
    (h : optim assessOptim (EllStable.space n) ltReal o s g0 opts = (o', s', .ok (xb, γ, k))) : γ ≤ γs ∧ ∃ x, xb = some x ∧ x ∈ d.Feasible n γ ∧ d.IsStopMax x γ := by
  subst ho
  obtain ⟨e, he⟩ := (C60_init_rejects (.scalar (R ^ 2)) x0).2 hn
  obtain ⟨w1, w2, s1, h1, h2⟩ := init_refines (.scalar (R ^ 2)) (by positivity) x0 he
  obtain rfl : s = s1 := by rw [hs] at h1; exact Except.ok.inj h1
  have hgood := (used_good (by omega : 0 < n) hd sp []).1
  rcases C74_optim_same_outcome (I := Good d) (fun o x γ ho => (assessOptim_ok ho hd (by omega) x γ).1) (lowpass_usable (by omega) hd hw) _ hgood s e ⟨h2, w1, w2⟩ g0 opts with ⟨h3, -⟩ | ⟨h3, h4⟩
  · rw [h] at h3; cases h3
  · rw [h] at h3 h4
    exact (C61_filter_design (by omega) d hd hw sp [] x0 c R r hR hr e he g0 γs hF hg hball opts htol).2 hmax _ _ xb γ k (Prod.ext h3.symm (Prod.ext rfl h4.symm))

/-- What `cutting_plane_optim` gives for a design: an exception, or an array that is not the one of the centre with a design `y` and its largest stopband response, which is at most `γs`. -/
def Designed (n : ℕ) (d : LowpassDesign) (γs : ℝ) (lx : ℕ) (res : Res W Val) : Prop :=
  (∃ f s2, res = .exc f s2) ∨
  ∃ s2 lb y vg γ k, res = .ok (.tuple [.ref lb, vg, .int (k : ℕ)]) s2 ∧ lb ≠ lx ∧ s2.heap lb = some (.vec n y) ∧ vg.toReal = some γ ∧ γ ≤ γs ∧ y ∈ d.Feasible n γ ∧ d.IsStopMax y γ

theorem designed_of {γs : ℝ} {c : Vec n} {m : Except Fault (Option (Vec n) × ℝ × ℕ)} {r : Res W Val} (h : Outcome (IsNum Arith.exact) lx c m r)
    (h1 : ∀ xb γ k, m = .ok (xb, γ, k) → γ ≤ γs ∧ ∃ x, xb = some x ∧ x ∈ d.Feasible n γ ∧ d.IsStopMax x γ) : Designed n d γs lx r := by
  obtain ⟨s2, hc, h⟩ := h
  rcases m with f | ⟨_ | y, γ, k⟩
  · exact .inl ⟨_, s2, h⟩
  · obtain ⟨-, x, hx, -⟩ := h1 _ _ _ rfl
    cases hx
  · obtain ⟨lb, vg, h3, h4, h5, h6⟩ := h
    obtain ⟨h7, x, hx, h8, h9⟩ := h1 _ _ _ rfl
    cases hx
    exact .inr ⟨s2, lb, y, vg, γ, k, h3, h5, h6, isNum_exact.mp h4, h7, h8, h9⟩

/-- **C105.** The whole filter design in exact arithmetic, from the text: the constructor, `Ell(R**2, x)` or `EllStable(R**2, x)`, and `cutting_plane_optim` started at the level `g0`. Let the designs that are feasible for `g0` be in the ball of radius `R`
around `x`, and those that are feasible for a lower level `γs` contain a ball of radius `r`, `tolerance ≤ r²`, `max_iters > 2n(n+1)ln(R/r)`. If the run returns, then a design in a new array with its largest stopband response, which is at most `γs`. -/
theorem C105_filter_design (hd : d.Proper) (hw : d.wstop < 1) (sp : ℝ) {x c : Vec (m + 2)} (D : Start Arith.exact st lx x vopt opts) {R r : ℝ} (hR : 0 < R) (hr : 0 < r) {g0 γs : ℝ} {vg : Val} (hvg : vg.toReal = some g0)
    (hF : d.Feasible (m + 2) g0 ⊆ ball x R) (hg : γs < g0) (hball : ball c r ⊆ d.Feasible (m + 2) γs) (htol : opts.tolerance ≤ r ^ 2)
    (hmax : 2 * ((m + 2 : ℕ) : ℝ) * (((m + 2 : ℕ) : ℝ) + 1) * Real.log (R / r) < opts.maxIters) {cl : String} (hcl : cl = "Ell" ∨ cl = "EllStable") :
    ∃ s0 s1, call (mach Arith.exact ext) (fuel + 2) (.glob "LowpassOracle") [.int ((m + 2 : ℕ) : ℤ), .num d.wpass, .num d.wstop, .num d.lpSq, .num d.upSq, .num sp] st = .ok (.ref st.next) s0 ∧
      call (mach Arith.exact ext) (fuel + 3) (.glob cl) [.num (R ^ 2), .ref lx] s0 = .ok (.ref s0.next) s1 ∧
      Designed (m + 2) d γs lx (call (mach Arith.exact ext) (fuel + 8) (.glob "cutting_plane_optim") [.ref st.next, .ref s0.next, vg, vopt] s1) := by
  have hstop : Arith.exact.lowEdge (15 * (m + 1 + 1)) d.wstop < 15 * (m + 1 + 1) := by
    have h1 := (nwstop_lt_iff (init_good (m + 2) d sp) hd (by omega)).mpr hw
    have h2 := Arith.exact_lowInit (n := m + 2) (by omega) d.wpass d.wstop d.lpSq d.upSq sp
    rw [← h2] at h1
    exact h1
  obtain ⟨s0, h1, h2, h3⟩ := C105_optim (ext := ext) (fuel := fuel) (m := m + 1) literals_exact rfl D d.wpass d.wstop d.lpSq d.upSq sp (edge_nonneg hd.wpass_nonneg _) (edge_nonneg hd.wstop_nonneg _) hstop (.num (R ^ 2)) (isNum_exact.mpr hvg)
  have ho : Arith.exact.lowInit (m + 1 + 1) d.wpass d.wstop d.lpSq d.upSq sp = used (m + 2) d sp [] := Arith.exact_lowInit (by omega) _ _ _ _ _
  have hop : Arith.exact.lowOptim (n := m + 1 + 1) = assessOptim := by
    funext o x g
    exact Arith.exact_lowOptim o x g
  rcases hcl with rfl | rfl
  · obtain ⟨e, he⟩ := (C60_init_rejects (.scalar (R ^ 2)) x).2 (by omega : 2 ≤ m + 2)
    obtain ⟨s1, h4, h5⟩ := h2 e he
    rw [exact_space, hop, ho] at h5
    exact ⟨s0, s1, h1, h4, designed_of h5 fun xb γ k hm =>
      (C61_filter_design (by omega) d hd hw sp [] x c R r hR hr e he g0 γs hF hg hball opts htol).2 hmax _ _ xb γ k (Prod.ext rfl (Prod.ext rfl hm))⟩
  · obtain ⟨e, he, -⟩ := stable_init_ball hR x (by omega : 2 ≤ m + 2)
    obtain ⟨s1, h4, h5⟩ := h3 e he
    rw [exact_stableSpace, hop, ho] at h5
    exact ⟨s0, s1, h1, h4, designed_of h5 fun xb γ k hm =>
      stable_filter_design (by omega) hd hw _ sp rfl x c R r hR hr e he g0 γs hF hg hball opts htol hmax _ _ xb γ k (Prod.ext rfl (Prod.ext rfl hm))⟩

/-- **C105.** `cutting_plane_feas` with the constructed oracle and `Ell(R**2, x)` or `EllStable(R**2, x)`: if the designs that meet the specification are in the ball of radius `R` around `x` and contain a ball of radius `r`, `tolerance ≤ r²` and
`max_iters > 2n(n+1)ln(R/r)`, the run returns the array of `x`, with a design that meets the specification, after at most `2n(n+1)ln(R/r)` iterations. -/
theorem C105_feas_finds (hd : d.Proper) (sp : ℝ) {x c : Vec (m + 2)} (D : Start Arith.exact st lx x vopt opts) {R r : ℝ} (hR : 0 < R) (hr : 0 < r)
    (hF : d.Feasible (m + 2) sp ⊆ ball x R) (hball : ball c r ⊆ d.Feasible (m + 2) sp) (htol : opts.tolerance ≤ r ^ 2)
    (hmax : 2 * ((m + 2 : ℕ) : ℝ) * (((m + 2 : ℕ) : ℝ) + 1) * Real.log (R / r) < opts.maxIters) {cl : String} (hcl : cl = "Ell" ∨ cl = "EllStable") :
    ∃ s0 s1 s2 k y, call (mach Arith.exact ext) (fuel + 2) (.glob "LowpassOracle") [.int ((m + 2 : ℕ) : ℤ), .num d.wpass, .num d.wstop, .num d.lpSq, .num d.upSq, .num sp] st = .ok (.ref st.next) s0 ∧
      call (mach Arith.exact ext) (fuel + 3) (.glob cl) [.num (R ^ 2), .ref lx] s0 = .ok (.ref s0.next) s1 ∧
      call (mach Arith.exact ext) (fuel + 8) (.glob "cutting_plane_feas") [.ref st.next, .ref s0.next, vopt] s1 = .ok (.tuple [.ref lx, .int (k : ℕ)]) s2 ∧
      s2.heap lx = some (.vec (m + 2) y) ∧ y ∈ d.Feasible (m + 2) sp ∧ (k : ℝ) ≤ 2 * ((m + 2 : ℕ) : ℝ) * (((m + 2 : ℕ) : ℝ) + 1) * Real.log (R / r) := by
  obtain ⟨s0, h1, h2, h3⟩ := C105_feas (ext := ext) (fuel := fuel) (m := m + 1) literals_exact rfl D d.wpass d.wstop d.lpSq d.upSq sp (edge_nonneg hd.wpass_nonneg _) (edge_nonneg hd.wstop_nonneg _) (.num (R ^ 2))
  have ho : Arith.exact.lowInit (m + 1 + 1) d.wpass d.wstop d.lpSq d.upSq sp = used (m + 2) d sp [] := Arith.exact_lowInit (by omega) _ _ _ _ _
  have hop : Arith.exact.lowFeas (n := m + 1 + 1) = assessFeas := by
    funext o x
    exact Arith.exact_lowFeas o x
  have hgood := used_good (by omega : 0 < m + 2) hd sp []
  have hω := lowpass_feas_regular (n := m + 2) (by omega) hd sp
  rcases hcl with rfl | rfl
  · obtain ⟨e, he⟩ := (C60_init_rejects (.scalar (R ^ 2)) x).2 (by omega : 2 ≤ m + 2)
    obtain ⟨s1, h4, s2, h5, h6⟩ := h2 e he
    obtain ⟨o', e', y, k, h7, h8, h9⟩ := C23_feas_converges hω (used (m + 2) d sp []) hgood x c R r hR hr e he hF hball opts htol hmax
    rw [exact_space, hop, ho, h7] at h5 h6
    obtain ⟨h6, hy⟩ := h6
    rw [hy] at h5
    exact ⟨s0, s1, s2, k, y, h1, h4, h6, h5, h8, h9⟩
  · obtain ⟨e, he, -⟩ := stable_init_ball hR x (by omega : 2 ≤ m + 2)
    obtain ⟨s1, h4, s2, h5, h6⟩ := h3 e he
    obtain ⟨o', e', y, k, h7, h8, h9⟩ := stable_feas_converges hω (used (m + 2) d sp []) hgood x c R r hR hr e he (by omega) hF hball opts htol hmax
    rw [exact_stableSpace, hop, ho, h7] at h5 h6
    obtain ⟨h6, hy⟩ := h6
    rw [hy] at h5
    exact ⟨s0, s1, s2, k, y, h1, h4, h6, h5, h8, h9⟩

/-- **C105.** `create_lowpass_case(ndim)` of the text makes an oracle of the standard design: passband edge `0.12 π`, stopband edge `0.20 π`, passband response between `(1/1.025)²` and `1.025²`, stopband bound `0.125²`. -/
theorem C105_standard : ∃ s0, call (mach Arith.exact ext) (fuel + 3) (.glob "create_lowpass_case") [.int ((m + 1 : ℕ) : ℤ)] st = .ok (.ref st.next) s0
    ∧ DesignAt (m + 1) ⟨0.12, 0.20, (1 / 1.025) ^ 2, 1.025 ^ 2⟩ (0.125 ^ 2) st.next (st.next + 7) s0 ∧ Frame (fun _ => False) st s0 := by
  obtain ⟨s0, h1, h2, h3⟩ := low_case (ext := ext) (fuel := fuel) (st := st) m
  obtain ⟨h4, h5, -⟩ := C62_standard_case (m + 1)
  rw [h4] at h2
  obtain ⟨g1, g2⟩ := used_good (Nat.succ_pos m) h5 (0.125 ^ 2) []
  exact ⟨s0, h1, ⟨_, h2, g1, g2⟩, h3⟩

/-- **C105.** `create_lowpass_case()` designs 48 coefficients. -/
theorem C105_default : call (mach Arith.exact ext) (fuel + 3) (.glob "create_lowpass_case") [] st = call (mach Arith.exact ext) (fuel + 3) (.glob "create_lowpass_case") [.int 48] st := rfl

end

/-! ### An instance -/

theorem Desk.start {A : Arith} {st : St W} {la lp lx : ℕ} {a v x : Vec 2} {vopt : Val} {opts : Options ℝ} (D : Desk A st la lp lx a v x vopt opts) : Start A st lx x vopt opts := ⟨D.point, D.ltx, D.options, D.optlt⟩

/-- The design `halfDesign` (passband `{0}` with response in `[0.9, 1.1]`, stopband above `π/2`), with two coefficients: from the ball of radius 2 around 0, both loops, with both search spaces, on a heap with the point 0 and options. -/
example : (∀ ext fuel cl, cl = "Ell" ∨ cl = "EllStable" → ∃ s0 s1 : St Unit,
      call (mach Arith.exact ext) (fuel + 2) (.glob "LowpassOracle") [.int 2, .num 0, .num (1 / 2), .num (9 / 10), .num (11 / 10), .num (1 / 4)] (desk 0 0 0 3000 0) = .ok (.ref 4) s0 ∧
      call (mach Arith.exact ext) (fuel + 3) (.glob cl) [.num (2 ^ 2), .ref 2] s0 = .ok (.ref s0.next) s1 ∧
      Designed 2 halfDesign (3 / 5) 2 (call (mach Arith.exact ext) (fuel + 8) (.glob "cutting_plane_optim") [.ref 4, .ref s0.next, .int 1, .ref 3] s1)) ∧
    (∀ ext fuel cl, cl = "Ell" ∨ cl = "EllStable" → ∃ (s0 s1 s2 : St Unit) (k : ℕ) (y : Vec 2),
      call (mach Arith.exact ext) (fuel + 2) (.glob "LowpassOracle") [.int 2, .num 0, .num (1 / 2), .num (9 / 10), .num (11 / 10), .num (3 / 5)] (desk 0 0 0 3000 0) = .ok (.ref 4) s0 ∧
      call (mach Arith.exact ext) (fuel + 3) (.glob cl) [.num (2 ^ 2), .ref 2] s0 = .ok (.ref s0.next) s1 ∧
      call (mach Arith.exact ext) (fuel + 8) (.glob "cutting_plane_feas") [.ref 4, .ref s0.next, .ref 3] s1 = .ok (.tuple [.ref 2, .int k]) s2 ∧ s2.heap 2 = some (.vec 2 y) ∧ y ∈ halfDesign.Feasible 2 (3 / 5)) := by
  have hlog : 2 * ((0 + 2 : ℕ) : ℝ) * (((0 + 2 : ℕ) : ℝ) + 1) * Real.log (2 / (1 / 100)) < ((3000 : ℕ) : ℝ) := by
    have := Real.log_le_sub_one_of_pos (by norm_num : (0 : ℝ) < 2 / (1 / 100))
    push_cast
    linarith
  have D : Start Arith.exact (desk 0 0 0 3000 0) 2 (0 : Vec (0 + 2)) (.ref 3) ⟨3000, 0⟩ := (desk_ok 0 0 0 3000 0).start
  refine ⟨fun ext fuel cl hcl => ?_, fun ext fuel cl hcl => ?_⟩
  · exact C105_filter_design (m := 0) halfDesign_proper (by norm_num [halfDesign]) (1 / 4) D two_pos (by norm_num : (0 : ℝ) < 1 / 100) (vg := .int 1) (g0 := 1) (by norm_num [Val.toReal]) halfDesign_balls.1 (by norm_num) halfDesign_balls.2 (by norm_num) hlog hcl
  · obtain ⟨s0, s1, s2, k, y, h1, h2, h3, h4, h5, -⟩ := C105_feas_finds (ext := ext) (fuel := fuel) (m := 0) halfDesign_proper (3 / 5) D two_pos (by norm_num : (0 : ℝ) < 1 / 100)
      (fun y hy => halfDesign_balls.1 ⟨hy.1, fun k hk h => (hy.2 k hk h).trans (by norm_num)⟩) halfDesign_balls.2 (by norm_num) hlog hcl
    exact ⟨s0, s1, s2, k, y, h1, h2, h3, h4, h5⟩

/-- The hypotheses of the two methods are met by the oracle that the constructor makes, at every point. -/
example (ext : ℕ → String → List Val → M Unit Val) : ∃ s0 : St Unit, DesignAt 2 halfDesign (1 / 2) 4 11 s0 ∧ s0.heap 2 = some (.vec 2 halfFilter) ∧ 2 < s0.next ∧ halfFilter ∈ halfDesign.Feasible 2 (1 / 2) ∧
    (halfFilter ∉ halfDesign.Feasible 2 (-1)) := by
  obtain ⟨s0, -, h1, h2⟩ := C105_init (m := 1) (ext := ext) (fuel := 0) (st := desk 0 0 halfFilter 1 0) halfDesign_proper (1 / 2)
  refine ⟨s0, h1, (h2.same 2 (desk_ok 0 0 halfFilter 1 0).ltx not_false).trans (desk_ok 0 0 halfFilter 1 0).point, (desk_ok 0 0 halfFilter 1 0).ltx.trans_le h2.next, halfFilter_feasible, fun h => ?_⟩
  have hgt : halfDesign.wstop * Real.pi < grid 2 29 := by
    have g29 : grid 2 29 = Real.pi := by unfold grid; push_cast; norm_num; ring
    rw [g29]; simp only [halfDesign]; linarith [Real.pi_pos]
  have a := h.2 29 (by norm_num) hgt
  have b := h.1.stop 29 (by norm_num) hgt
  linarith

/-- The hypotheses of the statements about any arithmetic are met by doubles, with the edges of `halfDesign`. -/
example : Literals (Arith.ieee 53) ∧ (Arith.ieee 53).rnd ((1 + 1 : ℕ) : ℝ) = ((1 + 1 : ℕ) : ℝ) ∧ 0 ≤ (Arith.ieee 53).mul 0 ((Arith.ieee 53).rnd ((15 * (1 + 1) - 1 : ℤ) : ℝ)) ∧
    0 ≤ (Arith.ieee 53).mul (1 / 2) ((Arith.ieee 53).rnd ((15 * (1 + 1) - 1 : ℤ) : ℝ)) ∧ (Arith.ieee 53).lowEdge (15 * (1 + 1)) (1 / 2) < 15 * (1 + 1) := by
  have h29 : (Arith.ieee 53).rnd ((15 * (1 + 1) - 1 : ℤ) : ℝ) = 29 := by
    rw [ieee_rnd]; norm_num; exact_mod_cast rbN 29 (by norm_num)
  have h29' : (Arith.ieee 53).rnd (((15 * (1 + 1) : ℕ) - 1 : ℤ) : ℝ) = 29 := by
    rw [ieee_rnd]; norm_num; exact_mod_cast rbN 29 (by norm_num)
  have hh : (Arith.ieee 53).mul (1 / 2) 29 = 29 / 2 := by
    show (Arith.ieee 53).rnd _ = _
    rw [ieee_rnd]
    have := rb 29 1 (by norm_num)
    norm_num at this ⊢
    exact this
  have h0 : (Arith.ieee 53).mul 0 29 = 0 := by
    show (Arith.ieee 53).rnd _ = _
    rw [zero_mul]
    exact literals_double.zero
  refine ⟨literals_double, dimension_double (by norm_num), by rw [h29, h0], by rw [h29, hh]; norm_num, ?_⟩
  unfold Arith.lowEdge
  rw [h29', hh]
  have : ⌊(29 / 2 : ℝ)⌋₊ < 15 := by
    rw [Nat.floor_lt'] <;> norm_num
  omega

end Ellalgo.Py
