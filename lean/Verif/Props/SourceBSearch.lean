import Verif.Py.Refine.AdaptorStable
import Verif.Props.SourceStable
import Verif.Props.StableBSearch

/-!
# C109: `bsearch` and `BSearchAdaptor` of the text, with `EllStable`

And the accuracy of C81 from the text alone, for both search spaces.
-/

namespace Ellalgo.Py

open Matrix Spec CuttingPlane

variable {W O G : Type} {n : ℕ}

section

variable {A : Arith} {own : St W → ℕ → Prop} {Q : St W → O → Prop} {l lm lx : ℕ} {vo vopt : Val} {opts : Options ℝ} {ext : ℕ → String → List Val → M W Val} {fuel : ℕ}

/-- **C109.** `bsearch(BSearchAdaptor(omega, space, options), (lower, upper), options2)` of the text with an `EllStable` of the text, in any arithmetic, for an oracle whose gradients are its own arrays or new ones: it raises or
returns what the model says. Of what was there before, only the attribute `_xc` of the search space (and what belongs to the oracle) changes: `x_best` is the centre of the model. -/
theorem C109_bsearch (hA : Literals A) {D : Type} {omega : OracleFeas O (Vec n) (Cut n)} {upd : O → G → O} {gv : G → Val} (hQ : ParamOracle A ext (fuel + 7) vo own omega upd gv Q False)
    {opts2 : Options ℝ} {v2 : Val} {num : BSNum G D} {isL : G → Val → Prop} {isD : D → Val → Prop} {T : String} (hn : BSNumSim A ext (fuel + 9) num opts2.tolerance gv isL isD T)
    {st : St W} {o : O} {e : EllStable n} (h : StableReady A own Q l lm lx vopt opts st o e) (h2 : OptionsAt A st v2 opts2) (hlt2 : ∀ k, v2 = .ref k → k < st.next) {a b : G} {va : Val} (ha : isL a va) :
    ∃ s1 s2 lm' lx', call (mach A ext) (fuel + 1) (.glob "BSearchAdaptor") [vo, .ref l, vopt] st = .ok (.ref st.next) s1
      ∧ call (mach A ext) (fuel + 10) (.glob "bsearch") [.ref st.next, .tuple [va, gv b], v2] s1
        = (match (bsearch (assessBS omega upd (A.stableSpace n) ltReal opts) num (o, e) (a, b) opts2.maxIters).2.2 with
          | .error f => .exc (excOf f) s2
          | .ok (u, k) => .ok (.tuple [gv u, .int k]) s2)
      ∧ StableAt A s2 l lm' lx' (bsearch (assessBS omega upd (A.stableSpace n) ltReal opts) num (o, e) (a, b) opts2.maxIters).1.2
      ∧ Q s2 (bsearch (assessBS omega upd (A.stableSpace n) ltReal opts) num (o, e) (a, b) opts2.maxIters).1.1
      ∧ getAttr (mach A ext) (call (mach A ext) (fuel + 2)) (.ref st.next) "x_best" s2 = .ok (.ref lx') s2
      ∧ ∀ k < st.next, k ≠ l → ¬ own st k → s2.heap k = st.heap k := by
  obtain ⟨s1, h1, had, hf, hnext⟩ := adaptor_init A ext fuel st vo (.ref l) vopt
  have hf' : Frame (fun k => ¬ own st k) st s1 := ⟨hf.next, hf.world, fun k hk _ => hf.same k hk not_false⟩
  obtain ⟨hq1, hown1⟩ := hQ.stable h.oracle hf'
  have hsame : ∀ k < st.next, s1.heap k = st.heap k := fun k hk => hf.same k hk not_false
  have hap : ∀ k, k = l ∨ k = lm ∨ k = lx → ¬ own s1 k := fun k hk ho => h.apart k hk (hown1 k ho)
  have hA1 : AdaptedStable A own Q st.next l vo vopt v2 opts opts2 s1 s1 (o, e) :=
    ⟨⟨lm, lx, h.ell.stable hf.next fun k hk _ => hsame k hk, hap⟩, hq1, h.options.mono fun k _ hk _ => hsame k (h.optlt k hk), h2.mono fun k _ hk _ => hsame k (hlt2 k hk), had,
      fun k hk => (h.optlt k hk).trans_le hf.next, fun k hk => (hlt2 k hk).trans_le hf.next, .refl _ _ _⟩
  have hh := call_bsearch (fuel := fuel + 8) hn (adaptor_sim_stable hA hQ (st0 := s1) (la := st.next) (l := l) (vopt := vopt) (v2 := v2) (opts := opts) (opts2 := opts2)) hA1 ha (u := b)
  have fin : ∀ s2 (os : O × EllStable n), AdaptedStable A own Q st.next l vo vopt v2 opts opts2 s1 s2 os → ∃ lm' lx', StableAt A s2 l lm' lx' os.2 ∧ Q s2 os.1
      ∧ getAttr (mach A ext) (call (mach A ext) (fuel + 2)) (.ref st.next) "x_best" s2 = .ok (.ref lx') s2 ∧ ∀ k < st.next, k ≠ l → ¬ own st k → s2.heap k = st.heap k := by
    intro s2 os hA2
    obtain ⟨lm', lx', he, -⟩ := hA2.ell
    refine ⟨lm', lx', he, hA2.oracle, adaptor_x_best_stable hA2.adaptor he fuel, fun k hk hkl ho => ?_⟩
    exact ((hA2.since.same k (hk.trans_le hf.next) hkl fun ho' => ho (hown1 k ho')).1).trans (hsame k hk)
  rcases hr : bsearch (assessBS omega upd (A.stableSpace n) ltReal opts) num (o, e) (a, b) opts2.maxIters with ⟨os, lo, f | ⟨u, k⟩⟩ <;> rw [hr] at hh <;> simp only [BSOutcome] at hh
  · obtain ⟨s2, h3, h4⟩ := hh
    obtain ⟨lm', lx', h5⟩ := fin s2 os h4
    exact ⟨s1, s2, lm', lx', h1, h3, h5⟩
  · obtain ⟨s2, h3, h4⟩ := hh
    obtain ⟨lm', lx', h5⟩ := fin s2 os h4
    exact ⟨s1, s2, lm', lx', h1, h3, h5⟩

end

section

variable {own own' : St W → ℕ → Prop} {Q Q' : St W → O → Prop} {vo vo' vopt vopt' : Val} {opts opts2 : Options ℝ} {ext ext' : ℕ → String → List Val → M W Val} {fuel fuel' : ℕ}

/-- **C109.** `bsearch` of the text with `EllStable` and with `Ell`, started from the same ellipsoid with the same oracle: they return the same pair and `x_best` is the same point, or they raise the same exception, unless the search
with `EllStable` ends in a `ZeroDivisionError`. -/
theorem C109_bsearch_same {D : Type} {omega : OracleFeas O (Vec n) (Cut n)} {upd : O → G → O} {gv : G → Val} {I : O → Prop} (hI : ∀ o x, I o → I (omega o x).1) (hup : ∀ o γ, I o → I (upd o γ))
    (hω : ∀ o x o' cut, I o → omega o x = (o', .ok (some cut)) → UsableCut cut) (hQ : ParamOracle Arith.exact ext (fuel + 7) vo own omega upd gv Q False) (hQ' : ParamOracle Arith.exact ext' (fuel' + 7) vo' own' omega upd gv Q')
    {v2 v2' : Val} {num : BSNum G D} {isL : G → Val → Prop} {isD : D → Val → Prop} {T : String} (hn : BSNumSim Arith.exact ext (fuel + 9) num opts2.tolerance gv isL isD T)
    (hn' : BSNumSim Arith.exact ext' (fuel' + 9) num opts2.tolerance gv isL isD T)
    {st st' : St W} {o : O} (hi : I o) {s : EllStable n} {e : Ell n} (hse : InStep s e) {l lm lx l' lm' lx' : ℕ} (h : StableReady Arith.exact own Q l lm lx vopt opts st o s)
    (h' : Ready Arith.exact own' Q' l' lm' lx' vopt' opts st' o e) (h2 : OptionsAt Arith.exact st v2 opts2) (hlt2 : ∀ k, v2 = .ref k → k < st.next) (h2' : OptionsAt Arith.exact st' v2' opts2)
    (hlt2' : ∀ k, v2' = .ref k → k < st'.next) {a b : G} {va : Val} (ha : isL a va) :
    ∃ s1 s1', call (mach Arith.exact ext) (fuel + 1) (.glob "BSearchAdaptor") [vo, .ref l, vopt] st = .ok (.ref st.next) s1
      ∧ call (mach Arith.exact ext') (fuel' + 1) (.glob "BSearchAdaptor") [vo', .ref l', vopt'] st' = .ok (.ref st'.next) s1'
      ∧ ((∃ s2, call (mach Arith.exact ext) (fuel + 10) (.glob "bsearch") [.ref st.next, .tuple [va, gv b], v2] s1 = .exc "ZeroDivisionError" s2)
        ∨ ∃ s2 s2', ((∃ f, call (mach Arith.exact ext) (fuel + 10) (.glob "bsearch") [.ref st.next, .tuple [va, gv b], v2] s1 = .exc f s2
            ∧ call (mach Arith.exact ext') (fuel' + 10) (.glob "bsearch") [.ref st'.next, .tuple [va, gv b], v2'] s1' = .exc f s2')
          ∨ ∃ u k, call (mach Arith.exact ext) (fuel + 10) (.glob "bsearch") [.ref st.next, .tuple [va, gv b], v2] s1 = .ok (.tuple [gv u, .int (k : ℕ)]) s2
            ∧ call (mach Arith.exact ext') (fuel' + 10) (.glob "bsearch") [.ref st'.next, .tuple [va, gv b], v2'] s1' = .ok (.tuple [gv u, .int k]) s2')
          ∧ ∃ lb lb' x, getAttr (mach Arith.exact ext) (call (mach Arith.exact ext) (fuel + 2)) (.ref st.next) "x_best" s2 = .ok (.ref lb) s2
            ∧ getAttr (mach Arith.exact ext') (call (mach Arith.exact ext') (fuel' + 2)) (.ref st'.next) "x_best" s2' = .ok (.ref lb') s2'
            ∧ s2.heap lb = some (.vec n x) ∧ s2'.heap lb' = some (.vec n x)) := by
  obtain ⟨s1, s2, lm1, lb, h3, h4, h5, -, h6, -⟩ := C109_bsearch literals_exact hQ hn h h2 hlt2 ha (b := b)
  obtain ⟨s1', s2', lm1', lb', h3', h4', h5', -, h6', -⟩ := C98_bsearch literals_exact hQ' hn' h' h2' hlt2' ha (b := b)
  rw [exact_stableSpace] at h4 h5
  rw [exact_space] at h4' h5'
  refine ⟨s1, s1', h3, h3', ?_⟩
  rcases C109_same_outcome hI hup hω opts num o hi s e hse a b opts2.maxIters with h7 | ⟨h7, -, h8⟩
  · rw [h7] at h4
    exact .inl ⟨s2, h4⟩
  · rw [h7] at h4
    refine .inr ⟨s2, s2', ?_, lb, lb', _, h6, h6', h5.xc, by rw [h8.1.xc]; exact h5'.xc⟩
    rcases hr : (bsearch (assessBS omega upd (Ell.space n) ltReal opts) num (o, e) (a, b) opts2.maxIters).2.2 with f | ⟨u, k⟩ <;> rw [hr] at h4 h4'
    · exact .inl ⟨_, h4, h4'⟩
    · exact .inr ⟨u, k, h4, h4'⟩

theorem stableInit_setXc (val : InitVal n) (x y : Vec n) : EllStable.init val y = (EllStable.init val x).map fun s => s.setXc y := by
  unfold EllStable.init
  rcases EllCalc.init (n : ℤ) with f | c
  · rfl
  · cases val <;> rfl

theorem stableInit_xc {val : InitVal n} {x : Vec n} {s : EllStable n} (h : EllStable.init val x = .ok s) : s.xc = x := by
  unfold EllStable.init at h
  rcases hc : EllCalc.init (n : ℤ) with f | c <;> rw [hc] at h
  · cases h
  · cases val <;> cases h <;> rfl

theorem ellInit_setXc (val : InitVal n) (x y : Vec n) : Ell.init val y = (Ell.init val x).map fun e => e.setXc y := by
  unfold Ell.init
  rcases EllCalc.init (n : ℤ) with f | c
  · rfl
  · cases val <;> rfl

theorem ellInit_xc {val : InitVal n} {x : Vec n} {e : Ell n} (h : Ell.init val x = .ok e) : e.xc = x := by
  unfold Ell.init at h
  rcases hc : EllCalc.init (n : ℤ) with f | c <;> rw [hc] at h
  · cases h
  · cases val <;> cases h <;> rfl

/-- What `bsearch` of the text does, up to an exception that comes from a test below `γs`: it returns a bound `u` and the number of tests `k`, with `u ≤ γs + (upper - lower) / 2 ** k`, and `u < γs + 2 * tolerance` unless it
used all its tests; and `x_best` is a feasible point for `u`, or nothing was found and `u` is the initial upper bound. -/
def Bisects (F : ℝ → Set (Vec n)) (x : Vec n) (lo up γs : ℝ) (opts2 : Options ℝ) (raises : String → ℝ → Prop) (best : St W → Res W Val) (r : Res W Val) : Prop :=
  (∃ s3 u k lb y, r = .ok (.tuple [.num u, .int (k : ℕ)]) s3 ∧ k ≤ opts2.maxIters ∧ u ≤ γs + (up - lo) / 2 ^ k ∧ (k < opts2.maxIters → u < γs + 2 * opts2.tolerance)
    ∧ best s3 = .ok (.ref lb) s3 ∧ s3.heap lb = some (.vec n y) ∧ ((u = up ∧ y = x) ∨ y ∈ F u))
  ∨ ∃ s3 f γ, r = .exc f s3 ∧ γ < γs ∧ raises f γ

/-- **C109.** From the text alone: `space = EllStable(R ** 2, x)`, `bsearch(BSearchAdaptor(omega, space, options), (lower, upper), options2)`, for a family `F γ` of feasibility problems growing with `γ`, if `F upper` is in the ball
and no two of its points are further apart than `R`, `F γs` has a positive volume, and the inner loop has enough iterations and a tolerance that is not positive. -/
theorem C109_accuracy {I : O → Prop} {J : ℝ → O → Prop} {F : ℝ → Set (Vec n)} {omega : OracleFeas O (Vec n) (Cut n)} {upd : O → ℝ → O} (hn : 2 ≤ n) (hω : Ellalgo.ParamOracle I J F omega upd)
    (hQ : ParamOracle Arith.exact ext (fuel + 7) vo own omega upd Val.num Q False) {st : St W} {o : O} (hI : I o) (ho : Q st o) (hopt : OptionsAt Arith.exact st vopt opts) (hlt : ∀ k, vopt = .ref k → k < st.next)
    {v2 : Val} (h2 : OptionsAt Arith.exact st v2 opts2) (hlt2 : ∀ k, v2 = .ref k → k < st.next) {lx : ℕ} {x : Vec n} (hx : st.heap lx = some (.vec n x)) (hltx : lx < st.next) (hox : ¬ own st lx) {R : ℝ} (hR : 0 < R)
    {lo up γs : ℝ} (hlo : lo ≤ γs) (hlu : lo ≤ up) (hF : F up ⊆ ball x R) (hd : ∀ y ∈ F up, F up ⊆ ball y R) (hv : MeasureTheory.volume (F γs) ≠ 0) (htol : opts.tolerance ≤ 0)
    (hmax : 2 * ((n : ℝ) + 1) * Real.log ((MeasureTheory.volume (ball x R)).toReal / (MeasureTheory.volume (F γs)).toReal) < opts.maxIters) :
    ∃ s1 s2, call (mach Arith.exact ext) (fuel + 3) (.glob "EllStable") [.num (R ^ 2), .ref lx] st = .ok (.ref st.next) s1
      ∧ call (mach Arith.exact ext) (fuel + 1) (.glob "BSearchAdaptor") [vo, .ref st.next, vopt] s1 = .ok (.ref s1.next) s2
      ∧ Bisects F x lo up γs opts2 (fun f γ => ∃ o₁ s₁ e, (assessBS omega upd (EllStable.space n) ltReal opts (o₁, s₁) γ).2 = .error e ∧ f = excOf e)
        (getAttr (mach Arith.exact ext) (call (mach Arith.exact ext) (fuel + 2)) (.ref s1.next) "x_best")
        (call (mach Arith.exact ext) (fuel + 10) (.glob "bsearch") [.ref s1.next, .tuple [.num lo, .num up], v2] s2) := by
  obtain ⟨s, h0, hs, hreg⟩ := stable_init_ball hR x hn
  obtain ⟨s1, lm, h1, hrdy⟩ := stableReady_init literals_exact rfl hQ.toOracleAt ho hopt hlt (ext := ext) (fuel := fuel) (.num (R ^ 2)) hx hltx hox ((C95_exact.1 _ x).trans h0)
  obtain ⟨s1', h1', hf1, -⟩ := stable_init literals_exact (ext := ext) (st := st) (A := Arith.exact) fuel rfl (.num (R ^ 2)) hx hltx
  rw [show Arith.exact.stableInit (.scalar (R ^ 2)) x = .ok s from (C95_exact.1 _ x).trans h0, h1] at h1'
  obtain rfl : s1 = s1' := by simpa using h1'
  have hset : ∀ y, (s.setXc y).region = ball y R := fun y => by
    obtain ⟨s', h3, -, h4⟩ := stable_init_ball hR y hn
    rw [stableInit_setXc (.scalar (R ^ 2)) x y, h0] at h3
    cases h3
    exact h4
  have hxc : s.xc = x := stableInit_xc h0
  have hb : stableBound s (F γs) = 2 * ((n : ℝ) + 1) * Real.log ((MeasureTheory.volume (ball x R)).toReal / (MeasureTheory.volume (F γs)).toReal) := by unfold stableBound; rw [hreg]
  obtain ⟨o', s', lo', r, h3, h4⟩ := C109_stable_accuracy hω opts htol o hI s hs lo up γs opts2.tolerance hlo hlu (by rw [hreg]; exact hF) (fun y hy => by rw [hset]; exact hd y hy) hv (by rw [hb]; exact hmax) opts2.maxIters
  obtain ⟨s2, s3, lm', lx', h5, h6, h7, -, h8, -⟩ := C109_bsearch literals_exact hQ (floatNum_sim _ _ (fuel + 8) (by simp [Arith.exact]) opts2.tolerance) hrdy (h2.mono fun k _ hk _ => hf1.same k (hlt2 k hk) not_false)
    (fun k hk => (hlt2 k hk).trans_le hf1.next) (a := lo) (b := up) (va := .num lo) rfl
  rw [exact_stableSpace, floatNum_exact, h3] at h6 h7
  refine ⟨s1, s2, h1, h5, ?_⟩
  rcases h4 with ⟨u, k, rfl, h9, h10, h11, h12⟩ | ⟨f, u, -, ⟨o₁, s₁⟩, rfl, -, h9, h10⟩
  · refine .inl ⟨s3, u, k, lx', _, h6, h9, h10, h11, h8, h7.xc, ?_⟩
    rcases h12 with ⟨h12, h13⟩ | h12
    · exact .inl ⟨h12, by dsimp only; rw [h13, hxc]⟩
    · exact .inr h12
  · exact .inr ⟨s3, _, _, h6, h10, o₁, s₁, f, by rw [h9], rfl⟩

/-- **C109.** From the text alone: `space = Ell(R ** 2, x)`, `bsearch(BSearchAdaptor(omega, space, options), (lower, upper), options2)`, for a family `F γ` of feasibility problems growing with `γ`, if `F upper` is in the ball
and no two of its points are further apart than `R`, `F γs` has a positive volume, and the inner loop has enough iterations and a tolerance that is not positive. -/
theorem C109_accuracy_ell {I : O → Prop} {J : ℝ → O → Prop} {F : ℝ → Set (Vec n)} {omega : OracleFeas O (Vec n) (Cut n)} {upd : O → ℝ → O} (hn : 2 ≤ n) (hω : Ellalgo.ParamOracle I J F omega upd)
    (hQ : ParamOracle Arith.exact ext (fuel + 7) vo own omega upd Val.num Q) {st : St W} {o : O} (hI : I o) (ho : Q st o) (hopt : OptionsAt Arith.exact st vopt opts) (hlt : ∀ k, vopt = .ref k → k < st.next)
    {v2 : Val} (h2 : OptionsAt Arith.exact st v2 opts2) (hlt2 : ∀ k, v2 = .ref k → k < st.next) {lx : ℕ} {x : Vec n} (hx : st.heap lx = some (.vec n x)) (hltx : lx < st.next) (hox : ¬ own st lx) {R : ℝ} (hR : 0 < R)
    {lo up γs : ℝ} (hlo : lo ≤ γs) (hlu : lo ≤ up) (hF : F up ⊆ ball x R) (hd : ∀ y ∈ F up, F up ⊆ ball y R) (hv : MeasureTheory.volume (F γs) ≠ 0) (htol : opts.tolerance ≤ 0)
    (hmax : 2 * ((n : ℝ) + 1) * Real.log ((MeasureTheory.volume (ball x R)).toReal / (MeasureTheory.volume (F γs)).toReal) < opts.maxIters) :
    ∃ s1 s2, call (mach Arith.exact ext) (fuel + 3) (.glob "Ell") [.num (R ^ 2), .ref lx] st = .ok (.ref st.next) s1
      ∧ call (mach Arith.exact ext) (fuel + 1) (.glob "BSearchAdaptor") [vo, .ref st.next, vopt] s1 = .ok (.ref s1.next) s2
      ∧ Bisects F x lo up γs opts2 (fun f γ => ∃ o₁ s₁ e, (assessBS omega upd (Ell.space n) ltReal opts (o₁, s₁) γ).2 = .error e ∧ f = excOf e)
        (getAttr (mach Arith.exact ext) (call (mach Arith.exact ext) (fuel + 2)) (.ref s1.next) "x_best")
        (call (mach Arith.exact ext) (fuel + 10) (.glob "bsearch") [.ref s1.next, .tuple [.num lo, .num up], v2] s2) := by
  obtain ⟨s, h0⟩ := (C60_init_rejects (.scalar (R ^ 2)) x).2 hn
  obtain ⟨hs, hreg, -⟩ := init_ball hR h0
  obtain ⟨s1, lm, h1, hrdy⟩ := ready_init literals_exact rfl hQ.toOracleAt ho hopt hlt (ext := ext) (fuel := fuel) (.num (R ^ 2)) hx hltx hox (show Arith.exact.ellInit _ _ = .ok s from h0)
  obtain ⟨s1', h1', hf1, -⟩ := ell_init literals_exact (ext := ext) (st := st) (A := Arith.exact) fuel rfl (.num (R ^ 2)) hx hltx
  rw [show Arith.exact.ellInit (.scalar (R ^ 2)) x = .ok s from h0, h1] at h1'
  obtain rfl : s1 = s1' := by simpa using h1'
  have hset : ∀ y, (s.setXc y).region = ball y R := fun y => by
    exact (init_ball hR (by rw [ellInit_setXc (.scalar (R ^ 2)) x y, h0]; rfl)).2.1
  have hxc : s.xc = x := ellInit_xc h0
  have hb : volBound s (F γs) = 2 * ((n : ℝ) + 1) * Real.log ((MeasureTheory.volume (ball x R)).toReal / (MeasureTheory.volume (F γs)).toReal) := by unfold volBound; rw [hreg]
  obtain ⟨o', s', lo', r, h3, h4⟩ := C81_bsearch_accuracy_partial hω opts htol o hI s hs lo up γs opts2.tolerance hlo hlu (by rw [hreg]; exact hF) (fun y hy => by rw [hset]; exact hd y hy) hv (by rw [hb]; exact hmax) opts2.maxIters
  obtain ⟨s2, s3, lm', lx', h5, h6, h7, -, h8, -⟩ := C98_bsearch literals_exact hQ (floatNum_sim _ _ (fuel + 8) (by simp [Arith.exact]) opts2.tolerance) hrdy (h2.mono fun k _ hk _ => hf1.same k (hlt2 k hk) not_false)
    (fun k hk => (hlt2 k hk).trans_le hf1.next) (a := lo) (b := up) (va := .num lo) rfl
  rw [exact_space, floatNum_exact, h3] at h6 h7
  refine ⟨s1, s2, h1, h5, ?_⟩
  rcases h4 with ⟨u, k, rfl, h9, h10, h11, h12⟩ | ⟨f, u, -, ⟨o₁, s₁⟩, rfl, -, h9, h10⟩
  · refine .inl ⟨s3, u, k, lx', _, h6, h9, h10, h11, h8, h7.xc, ?_⟩
    rcases h12 with ⟨h12, h13⟩ | h12
    · exact .inl ⟨h12, by dsimp only; rw [h13, hxc]⟩
    · exact .inr h12
  · exact .inr ⟨s3, _, _, h6, h10, o₁, s₁, f, by rw [h9], rfl⟩

end

/-! ### The drift of C81 in the text -/

theorem drift_usable : ∀ o x o' cut, True → driftOracle o x = (o', .ok (some cut)) → UsableCut cut := fun o x o' cut _ h =>
  ⟨((driftOracle_param.proper o).shape o x o' cut rfl h).2, ((driftOracle_param.proper o).cut o x o' cut rfl h).1.pair⟩

section

variable {own : St W → ℕ → Prop} {Q : St W → ℝ → Prop} {vo vopt v2 : Val} {opts opts2 : Options ℝ} {ext : ℕ → String → List Val → M W Val} {fuel : ℕ} {st : St W} {lx : ℕ}

/-- **C109.** Without the condition on the distances in `F upper` the accuracy fails in the text as well: with `space = Ell(1, x)`, `bsearch` on `(0, 2)` returns `1` although every problem has a positive volume in the disc,
whatever the limits and tolerances are; with `space = EllStable(1, x)` it returns `1` or raises `ZeroDivisionError`. -/
theorem C109_drifts (hQ : ParamOracle Arith.exact ext (fuel + 7) vo own driftOracle (fun _ γ => γ) Val.num Q False) (hQ' : ParamOracle Arith.exact ext (fuel + 7) vo own driftOracle (fun _ γ => γ) Val.num Q)
    (ho : Q st 0) (hopt : OptionsAt Arith.exact st vopt opts) (hlt : ∀ k, vopt = .ref k → k < st.next) (h2 : OptionsAt Arith.exact st v2 opts2) (hlt2 : ∀ k, v2 = .ref k → k < st.next)
    (hx : st.heap lx = some (.vec 2 0)) (hltx : lx < st.next) (hox : ¬ own st lx) (hm : 2 ≤ opts.maxIters) (ht : opts.tolerance ≤ 1) (hm2 : 1 ≤ opts2.maxIters) (ht2 : opts2.tolerance ≤ 1) :
    (∀ γ, MeasureTheory.volume (driftSet γ ∩ ball 0 1) ≠ 0)
    ∧ (∃ s1 s2 s3 k, call (mach Arith.exact ext) (fuel + 3) (.glob "Ell") [.num 1, .ref lx] st = .ok (.ref st.next) s1
      ∧ call (mach Arith.exact ext) (fuel + 1) (.glob "BSearchAdaptor") [vo, .ref st.next, vopt] s1 = .ok (.ref s1.next) s2
      ∧ call (mach Arith.exact ext) (fuel + 10) (.glob "bsearch") [.ref s1.next, .tuple [.num 0, .num 2], v2] s2 = .ok (.tuple [.num 1, .int (k : ℕ)]) s3)
    ∧ ∃ s1 s2 s3 k, call (mach Arith.exact ext) (fuel + 3) (.glob "EllStable") [.num 1, .ref lx] st = .ok (.ref st.next) s1
      ∧ call (mach Arith.exact ext) (fuel + 1) (.glob "BSearchAdaptor") [vo, .ref st.next, vopt] s1 = .ok (.ref s1.next) s2
      ∧ (call (mach Arith.exact ext) (fuel + 10) (.glob "bsearch") [.ref s1.next, .tuple [.num 0, .num 2], v2] s2 = .ok (.tuple [.num 1, .int (k : ℕ)]) s3
        ∨ call (mach Arith.exact ext) (fuel + 10) (.glob "bsearch") [.ref s1.next, .tuple [.num 0, .num 2], v2] s2 = .exc "ZeroDivisionError" s3) := by
  have he : Ell.init (.scalar 1) (0 : Vec 2) = .ok unitDisc := by unfold Ell.init; rw [EllCalc.init_two_le le_rfl]; rfl
  obtain ⟨w1, w2, s, h1, h2'⟩ := init_refines (.scalar 1) (by norm_num) (0 : Vec 2) he
  have hin : InStep s unitDisc := ⟨h2', w1, w2⟩
  obtain ⟨-, hvol, hdrift⟩ := C81_refuted
  obtain ⟨os, lo', k, hb⟩ := hdrift opts opts2.tolerance opts2.maxIters hm ht ht2 hm2
  have hreg : unitDisc.region = ball 0 1 := (init_ball (R := 1) one_pos (by rw [one_pow]; exact he)).2.1
  have hnum := floatNum_sim ext (A := Arith.exact) (fuel + 8) (by simp [Arith.exact]) opts2.tolerance
  refine ⟨fun γ => hreg ▸ hvol γ, ?_, ?_⟩
  · obtain ⟨s1, lm, h3, h4⟩ := ready_init literals_exact rfl hQ'.toOracleAt ho hopt hlt (ext := ext) (fuel := fuel) (.num 1) hx hltx hox (show Arith.exact.ellInit _ _ = .ok unitDisc from he)
    obtain ⟨s1', h3', hf1, -⟩ := ell_init literals_exact (ext := ext) (st := st) (A := Arith.exact) fuel rfl (.num 1) hx hltx
    rw [show Arith.exact.ellInit (.scalar 1) 0 = .ok unitDisc from he, h3] at h3'
    obtain rfl : s1 = s1' := by simpa using h3'
    obtain ⟨s2, s3, lm', lx', h5, h6, -⟩ := C98_bsearch literals_exact hQ' hnum h4 (h2.mono fun k _ hk _ => hf1.same k (hlt2 k hk) not_false)
      (fun k hk => (hlt2 k hk).trans_le hf1.next) (a := 0) (b := 2) (va := .num 0) rfl
    rw [exact_space, floatNum_exact, hb] at h6
    exact ⟨s1, s2, s3, k, h3, h5, h6⟩
  · obtain ⟨s1, lm, h3, h4⟩ := stableReady_init literals_exact rfl hQ.toOracleAt ho hopt hlt (ext := ext) (fuel := fuel) (.num 1) hx hltx hox ((C95_exact.1 _ _).trans h1)
    obtain ⟨s1', h3', hf1, -⟩ := stable_init literals_exact (ext := ext) (st := st) (A := Arith.exact) fuel rfl (.num 1) hx hltx
    rw [show Arith.exact.stableInit (.scalar 1) 0 = .ok s from (C95_exact.1 _ _).trans h1, h3] at h3'
    obtain rfl : s1 = s1' := by simpa using h3'
    obtain ⟨s2, s3, lm', lx', h5, h6, -⟩ := C109_bsearch literals_exact hQ hnum h4 (h2.mono fun k _ hk _ => hf1.same k (hlt2 k hk) not_false)
      (fun k hk => (hlt2 k hk).trans_le hf1.next) (a := 0) (b := 2) (va := .num 0) rfl
    rw [exact_stableSpace, floatNum_exact] at h6
    refine ⟨s1, s2, s3, k, h3, h5, ?_⟩
    rcases C109_same_outcome (I := fun _ => True) (fun _ _ _ => trivial) (upd := fun _ γ => γ) (fun _ _ _ => trivial) drift_usable opts (BSNum.exact ℝ opts2.tolerance) 0 trivial s unitDisc hin 0 2 opts2.maxIters with h7 | ⟨h7, -⟩
    · rw [h7] at h6
      exact .inr h6
    · rw [h7, hb] at h6
      exact .inl h6

end

/-! ### Runs of the text -/

/-- A heap with an oracle of the user at 0, an array at 1, options with `max_iters = N` and `tolerance = 0` at 2, and the default options at 3; the oracle starts with the parameter 0. -/
def bsHeap (N : ℕ) : St ℝ :=
  ⟨fun k => if k = 0 then some .user else if k = 1 then some (.vec 2 0) else if k = 2 then some (.inst "Options" ((Env.empty.set "max_iters" (.int N)).set "tolerance" (.int 0)))
    else if k = 3 then some (.inst "Options" Env.empty) else none, 4, 0⟩

theorem bsHeap_options (N : ℕ) : OptionsAt Arith.exact (bsHeap N) (.ref 2) ⟨N, 0⟩ ∧ OptionsAt Arith.exact (bsHeap N) (.ref 3) ⟨2000, 1 / 10 ^ 20⟩ :=
  ⟨⟨2, _, rfl, rfl, .inl rfl, .inl ⟨_, rfl, by simp [Val.toReal]⟩⟩, ⟨3, Env.empty, rfl, rfl, .inr ⟨rfl, rfl⟩, .inr ⟨rfl, by simp [literal, Arith.exact]⟩⟩⟩

/-- The user's object for a family of feasibility problems. -/
noncomputable def bsExt (omega : OracleFeas ℝ (Vec 2) (Cut 2)) : ℕ → String → List Val → M ℝ Val :=
  userExt Val.num (fun v => v.toReal.getD 0) omega (fun _ γ => γ) (fun o x _ => (o, .ok ((x, .scalar 0), none))) (fun o x _ _ => (o, .ok ⟨(x, .scalar 0), x, none, false⟩))

theorem bsExt_param (omega : OracleFeas ℝ (Vec 2) (Cut 2)) (fuel : ℕ) (free : Prop) :
    ParamOracle Arith.exact (bsExt omega) (fuel + 1) (.ref 0) (fun _ => (· = 0)) omega (fun _ γ => γ) Val.num (UserAt 0) free := user_param fun _ => rfl

/-- The hypotheses of `C109_accuracy`, `C109_accuracy_ell` (the balls of the example of C81) and `C109_drifts` on that heap. -/
example : ∃ (N : ℕ) (s1 s2 s1' s2' : St ℝ) (F : ℝ → Set (Vec 2)) (omega : OracleFeas ℝ (Vec 2) (Cut 2)), MeasureTheory.volume (F 0) ≠ 0
    ∧ Bisects F 0 0 2 0 ⟨2000, 1 / 10 ^ 20⟩ (fun f γ => ∃ o₁ s₁ e, (assessBS omega (fun _ γ => γ) (EllStable.space 2) ltReal ⟨N, 0⟩ (o₁, s₁) γ).2 = .error e ∧ f = excOf e)
      (getAttr (mach Arith.exact (bsExt omega)) (call (mach Arith.exact (bsExt omega)) 2) (.ref s1.next) "x_best")
      (call (mach Arith.exact (bsExt omega)) 10 (.glob "bsearch") [.ref s1.next, .tuple [.num 0, .num 2], .ref 3] s2)
    ∧ Bisects F 0 0 2 0 ⟨2000, 1 / 10 ^ 20⟩ (fun f γ => ∃ o₁ s₁ e, (assessBS omega (fun _ γ => γ) (Ell.space 2) ltReal ⟨N, 0⟩ (o₁, s₁) γ).2 = .error e ∧ f = excOf e)
      (getAttr (mach Arith.exact (bsExt omega)) (call (mach Arith.exact (bsExt omega)) 2) (.ref s1'.next) "x_best")
      (call (mach Arith.exact (bsExt omega)) 10 (.glob "bsearch") [.ref s1'.next, .tuple [.num 0, .num 2], .ref 3] s2')
    ∧ ∃ s1 s2 s3 k, call (mach Arith.exact (bsExt driftOracle)) 3 (.glob "Ell") [.num 1, .ref 1] (bsHeap 2) = .ok (.ref 4) s1
      ∧ call (mach Arith.exact (bsExt driftOracle)) 1 (.glob "BSearchAdaptor") [.ref 0, .ref 4, .ref 2] s1 = .ok (.ref s1.next) s2
      ∧ call (mach Arith.exact (bsExt driftOracle)) 10 (.glob "bsearch") [.ref s1.next, .tuple [.num 0, .num 2], .ref 3] s2 = .ok (.tuple [.num 1, .int (k : ℕ)]) s3 := by
  have r0 : stepRadius 0 = 1 / 4 := by simp [stepRadius]
  have r2 : stepRadius 2 = 1 / 2 := by norm_num [stepRadius]
  obtain ⟨e2, he2⟩ := (C60_init_rejects (.scalar ((1 / 4) ^ 2)) (![1 / 4, 0] : Vec 2)).mpr le_rfl
  obtain ⟨w2, hreg2, -⟩ := init_ball (by norm_num) he2
  have hv : MeasureTheory.volume (ball (![1 / 4, 0] : Vec 2) (stepRadius 0)) ≠ 0 := by rw [r0, ← hreg2]; exact WF.volume_ne_zero w2
  obtain ⟨N, hN⟩ := exists_nat_gt (2 * (((2 : ℕ) : ℝ) + 1) * Real.log ((MeasureTheory.volume (ball (0 : Vec 2) 1)).toReal / (MeasureTheory.volume (ball (![1 / 4, 0] : Vec 2) (stepRadius 0))).toReal))
  have hF : ball (![1 / 4, 0] : Vec 2) (stepRadius 2) ⊆ ball 0 1 := by
    intro y hy
    have hy' : (y 0 - 1 / 4) * (y 0 - 1 / 4) + y 1 * y 1 ≤ (1 / 2) ^ 2 := by simpa [r2, ball, dotProduct, Fin.sum_univ_two] using hy
    simp [ball, dotProduct, Fin.sum_univ_two]
    nlinarith [mul_self_nonneg (y 0 - 3 / 4), mul_self_nonneg (y 1)]
  have hd : ∀ x ∈ ball (![1 / 4, 0] : Vec 2) (stepRadius 2), ball (![1 / 4, 0] : Vec 2) (stepRadius 2) ⊆ ball x 1 := by
    intro x hx y hy
    have hx' : (x 0 - 1 / 4) * (x 0 - 1 / 4) + x 1 * x 1 ≤ (1 / 2) ^ 2 := by simpa [r2, ball, dotProduct, Fin.sum_univ_two] using hx
    have hy' : (y 0 - 1 / 4) * (y 0 - 1 / 4) + y 1 * y 1 ≤ (1 / 2) ^ 2 := by simpa [r2, ball, dotProduct, Fin.sum_univ_two] using hy
    simp [ball, dotProduct, Fin.sum_univ_two]
    nlinarith [mul_self_nonneg (x 0 - 1 / 4 + (y 0 - 1 / 4)), mul_self_nonneg (x 1 + y 1)]
  have hat : ∀ N, UserAt 0 (bsHeap N) 0 := fun N => ⟨Nat.succ_pos 3, rfl, rfl⟩
  obtain ⟨s1, s2, -, -, h1⟩ := C109_accuracy (fuel := 0) (ext := bsExt _) (vo := .ref 0) (opts := ⟨N, 0⟩) (opts2 := ⟨2000, 1 / 10 ^ 20⟩) le_rfl stepFamily (bsExt_param _ 6 False) (st := bsHeap N) (o := 0) trivial (hat N) (bsHeap_options N).1
    (by rintro k ⟨⟩; exact (by decide : 2 < 4)) (bsHeap_options N).2 (by rintro k ⟨⟩; exact (by decide : 3 < 4)) (lx := 1) (x := 0) rfl (show 1 < 4 by decide) (by decide) (R := 1) one_pos (lo := 0) (up := 2) (γs := 0) le_rfl (by norm_num) hF hd hv le_rfl hN
  obtain ⟨s1', s2', -, -, h1'⟩ := C109_accuracy_ell (fuel := 0) (ext := bsExt _) (vo := .ref 0) (opts := ⟨N, 0⟩) (opts2 := ⟨2000, 1 / 10 ^ 20⟩) le_rfl stepFamily (bsExt_param _ 6 True) (st := bsHeap N) (o := 0) trivial (hat N) (bsHeap_options N).1
    (by rintro k ⟨⟩; exact (by decide : 2 < 4)) (bsHeap_options N).2 (by rintro k ⟨⟩; exact (by decide : 3 < 4)) (lx := 1) (x := 0) rfl (show 1 < 4 by decide) (by decide) (R := 1) one_pos (lo := 0) (up := 2) (γs := 0) le_rfl (by norm_num) hF hd hv le_rfl hN
  obtain ⟨-, h2, -⟩ := C109_drifts (fuel := 0) (ext := bsExt driftOracle) (vo := .ref 0) (opts := ⟨2, 0⟩) (opts2 := ⟨2000, 1 / 10 ^ 20⟩) (bsExt_param _ 6 False) (bsExt_param _ 6 True) (st := bsHeap 2) (hat 2) (bsHeap_options 2).1
    (by rintro k ⟨⟩; exact (by decide : 2 < 4)) (bsHeap_options 2).2 (by rintro k ⟨⟩; exact (by decide : 3 < 4)) (lx := 1) rfl (show 1 < 4 by decide) (by decide) le_rfl (by norm_num) (by norm_num) (by norm_num)
  exact ⟨N, s1, s2, s1', s2', _, _, hv, h1, h1', h2⟩

/-- The hypotheses of `C109_bsearch`, `C109_bsearch_same`, `C109_same_outcome` and `C109_stable_accuracy` for the drifting problem, after `EllStable(1, x)` and after `Ell(1, x)`. -/
example : ∃ (s1 s1' : St ℝ) (lm lm' : ℕ) (s : EllStable 2), StableReady Arith.exact (fun _ => (· = 0)) (UserAt 0) 4 lm 1 (.ref 2) ⟨2, 0⟩ s1 (0 : ℝ) s
    ∧ Ready Arith.exact (fun _ => (· = 0)) (UserAt 0) 4 lm' 1 (.ref 2) ⟨2, 0⟩ s1' (0 : ℝ) unitDisc ∧ InStep s unitDisc ∧ s.Sound
    ∧ OptionsAt Arith.exact s1 (.ref 3) ⟨2000, 1 / 10 ^ 20⟩ ∧ OptionsAt Arith.exact s1' (.ref 3) ⟨2000, 1 / 10 ^ 20⟩
    ∧ ParamOracle Arith.exact (bsExt driftOracle) 7 (.ref 0) (fun _ => (· = 0)) driftOracle (fun _ γ => γ) Val.num (UserAt 0) False
    ∧ BSNumSim Arith.exact (bsExt driftOracle) 9 (floatNum Arith.exact (1 / 10 ^ 20)) (1 / 10 ^ 20) Val.num (fun x v => v.toFloat Arith.exact = some x) (fun x v => v = .num x) "float"
    ∧ Ellalgo.ParamOracle (fun _ => True) (fun γ o => o = γ) driftSet driftOracle (fun _ γ => γ) := by
  have hat : UserAt 0 (bsHeap 2) 0 := ⟨Nat.succ_pos 3, rfl, rfl⟩
  have he : Ell.init (.scalar 1) (0 : Vec 2) = .ok unitDisc := by unfold Ell.init; rw [EllCalc.init_two_le le_rfl]; rfl
  obtain ⟨w1, w2, s, h1, h2⟩ := init_refines (.scalar 1) (by norm_num) (0 : Vec 2) he
  have hin : InStep s unitDisc := ⟨h2, w1, w2⟩
  have hQ := bsExt_param driftOracle 6 False
  have hlt : ∀ k, Val.ref 2 = .ref k → k < (bsHeap 2).next := by rintro k ⟨⟩; exact (by decide : 2 < 4)
  obtain ⟨s1, lm, h3, h4⟩ := stableReady_init literals_exact rfl hQ.toOracleAt hat (bsHeap_options 2).1 hlt (ext := bsExt driftOracle) (fuel := 0) (.num 1) (lx := 1) rfl (show 1 < 4 by decide) (by decide) ((C95_exact.1 _ _).trans h1)
  obtain ⟨t1, h3', hf1, -⟩ := stable_init literals_exact (ext := bsExt driftOracle) (st := bsHeap 2) (A := Arith.exact) 0 rfl (.num 1) (lx := 1) (x := 0) rfl (show 1 < 4 by decide)
  rw [show Arith.exact.stableInit (.scalar 1) 0 = .ok s from (C95_exact.1 _ _).trans h1, h3] at h3'
  obtain rfl : s1 = t1 := by simpa using h3'
  obtain ⟨s1', lm', h5, h6⟩ := ready_init literals_exact rfl hQ.toOracleAt hat (bsHeap_options 2).1 hlt (ext := bsExt driftOracle) (fuel := 0) (.num 1) (lx := 1) rfl (show 1 < 4 by decide) (by decide)
    (show Arith.exact.ellInit _ _ = .ok unitDisc from he)
  obtain ⟨t1, h5', hf2, -⟩ := ell_init literals_exact (ext := bsExt driftOracle) (st := bsHeap 2) (A := Arith.exact) 0 rfl (.num 1) (lx := 1) (x := 0) rfl (show 1 < 4 by decide)
  rw [show Arith.exact.ellInit (.scalar 1) 0 = .ok unitDisc from he, h5] at h5'
  obtain rfl : s1' = t1 := by simpa using h5'
  have h33 : ∀ k (_ : Val.ref 3 = .ref k), k < (bsHeap 2).next := by rintro k ⟨⟩; exact (by decide : 3 < 4)
  exact ⟨s1, s1', lm, lm', s, h4, h6, hin, hin.sound, (bsHeap_options 2).2.mono fun k _ hk _ => hf1.same k (h33 k hk) not_false, (bsHeap_options 2).2.mono fun k _ hk _ => hf2.same k (h33 k hk) not_false, hQ,
    floatNum_sim _ _ 8 (by simp [Arith.exact]) _, driftOracle_param⟩

end Ellalgo.Py
