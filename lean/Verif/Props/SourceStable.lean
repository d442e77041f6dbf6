import Verif.Py.Refine.EllStable
import Verif.Props.SourceLmi
import Verif.Props.StableLoops

/-!
# Properties of the text of `ell_stable.py`

The methods of `EllStable`, and the functions of `cutting_plane.py` on an `EllStable`, run by the evaluator of `Py/Semantics`.
-/

namespace Ellalgo.Py

open Matrix Spec CuttingPlane

variable {W O G : Type} {n : ℕ}

/-! ### The methods -/

section

variable {A : Arith} {ext : ℕ → String → List Val → M W Val}

/-- **C101.** One call of a method of the text on an `EllStable` of the heap, with a gradient that is not the array of the centre: the outcome, the object afterwards, and what is left alone. -/
theorem C101_call (hA : Literals A) {st : St W} {l lm lx : ℕ} {e : EllStable n} (he : StableAt A st l lm lx e) (m : Method) {cut : Cut n} {v : Val} (hv : IsCut st cut v)
    (hx : ∀ vb, v ≠ .tuple [.ref lx, vb]) (hq : m = .q → ∀ bs, cut.2 ≠ .seq (none :: bs)) (fuel : ℕ) :
    ∃ st', call (mach A ext) (fuel + 7) (.meth (.ref l) (methodName m)) [v] st = outcome statusVal (A.stableUpdate e m cut).2 st'
      ∧ StableAt A st' l lm lx (A.stableUpdate e m cut).1 ∧ Frame (fun k => k = l ∨ k = lm ∨ k = lx) st st' := by
  cases m with
  | bias => exact stable_update_bias_cut hA he fuel hv hx
  | central => exact stable_update_central_cut hA he (fuel + 2) hv hx
  | q => exact stable_update_q hA he fuel hv hx (hq rfl)

/-- **C101.** The other methods: `xc()` returns the array itself, `tsq()` the last measure, `set_xc(x)` keeps the array that it is given; none of them changes anything else. -/
theorem C101_accessors {st : St W} {l lm lx : ℕ} {e : EllStable n} (he : StableAt A st l lm lx e) (fuel : ℕ) :
    call (mach A ext) (fuel + 1) (.meth (.ref l) "xc") [] st = .ok (.ref lx) st ∧ call (mach A ext) (fuel + 1) (.meth (.ref l) "tsq") [] st = .ok (.num e.tsq) st
    ∧ ∀ lx' x, st.heap lx' = some (.vec n x) → lx' < st.next → ∃ st', call (mach A ext) (fuel + 1) (.meth (.ref l) "set_xc") [.ref lx'] st = .ok .none st'
      ∧ StableAt A st' l lm lx' { e with xc := x } ∧ Frame (fun k => k = l) st st' :=
  ⟨stable_xc he fuel, stable_tsq he fuel, fun _ _ hx hlt => stable_set_xc he fuel hx hlt⟩

/-- **C101.** Any history of calls of the text with gradients in new arrays: every call returns or raises what the model says, in any arithmetic, and the object on the heap is the one of the model. -/
theorem C101_history (hA : Literals A) (fuel : ℕ) (hist : List (Method × Cut n)) (hq : ∀ p ∈ hist, p.1 = .q → ∀ bs, p.2.2 ≠ .seq (none :: bs)) {st : St W} {l lm lx : ℕ} {e : EllStable n}
    (he : StableAt A st l lm lx e) :
    ∃ st', script (mach A ext) (fuel + 7) l hist st = some ((A.stableStatuses e hist).map seen, st')
      ∧ StableAt A st' l lm lx (A.stableRun e hist) ∧ Frame (fun k => k = l ∨ k = lm ∨ k = lx) st st' := by
  induction hist generalizing st e with
  | nil => exact ⟨st, rfl, he, .refl _ _⟩
  | cons p t ih =>
    obtain ⟨m, cut⟩ := p
    have hv : IsCut (st.alloc (.vec n cut.1)) cut (.tuple [.ref st.next, choiceVal cut.2]) :=
      ⟨st.next, _, rfl, Nat.lt_succ_self _, heap_alloc_self _, isBeta_choice _ _⟩
    have he1 : StableAt A (st.alloc (.vec n cut.1)) l lm lx e := (stable_space hA ext 0 l lm lx).stable he (Nat.le_succ _) fun k hk _ => heap_alloc_ne hk.ne _
    obtain ⟨s1, h1, h2, h3⟩ := C101_call hA (ext := ext) he1 m hv (fun vb h => by simp at h; exact absurd he.ltx (by omega)) (hq _ List.mem_cons_self) fuel
    obtain ⟨s2, h4, h5, h6⟩ := ih (fun p hp => hq p (List.mem_cons_of_mem _ hp)) h2
    have hf : Frame (fun k => k = l ∨ k = lm ∨ k = lx) st s1 := ⟨(Nat.le_succ _).trans h3.next, h3.world, fun k hk h =>
      (h3.same k (hk.trans (Nat.lt_succ_self _)) h).trans (heap_alloc_ne hk.ne _)⟩
    refine ⟨s2, ?_, h5, hf.trans h6⟩
    simp only [script, h1, Arith.stableStatuses]
    cases hr : (A.stableUpdate e m cut).2 <;> simp only [outcome, pure_apply, exc_apply, h4, Option.map_some, List.map_cons, seen]

/-- **C101.** With the array of the centre as gradient, the second half of `_update_core` works with the new centre in place of the gradient. -/
theorem C101_aliased (hA : Literals A) {st : St W} {l lm lx : ℕ} {e : EllStable n} (he : StableAt A st l lm lx e) (m : Method) {b : CutChoice} {vb : Val} (hv : IsBeta st b vb)
    (hq : m = .q → ∀ bs, b ≠ .seq (none :: bs)) (fuel : ℕ) :
    ∃ st', call (mach A ext) (fuel + 7) (.meth (.ref l) (methodName m)) [.tuple [.ref lx, vb]] st = outcome statusVal (A.stableCoreLate id e (e.xc, b) (A.strategy e.helper m)).2 st'
      ∧ StableAt A st' l lm lx (A.stableCoreLate id e (e.xc, b) (A.strategy e.helper m)).1 ∧ Frame (fun k => k = l ∨ k = lm ∨ k = lx) st st' := by
  have hc : IsCut st (e.xc, b) (.tuple [.ref lx, vb]) := ⟨lx, vb, rfl, he.ltx, he.xc, hv⟩
  have hl : ∀ lg vb', Val.tuple [.ref lx, vb] = .tuple [.ref lg, vb'] → Late lx lg (e.xc, b).1 id := fun lg vb' h => by
    simp at h; exact .inr ⟨h.1.symm, rfl⟩
  cases m with
  | bias => exact stable_late_bias_cut hA he fuel hc hl
  | central => exact stable_late_central_cut hA he (fuel + 2) hc hl
  | q => exact stable_late_q hA he fuel hc hl (hq rfl)

end

/-! ### Runs -/

/-- What the caller finds after a run: the `EllStable` at `l`, the oracle, and of what was there before nothing else has changed. -/
structure StableAfter (A : Arith) (own : St W → ℕ → Prop) (Q : St W → O → Prop) (l lm lx : ℕ) (st st' : St W) (o : O) (e : EllStable n) : Prop where
  ell : StableAt A st' l lm lx e
  oracle : Q st' o
  same : ∀ k < st.next, ¬ (k = l ∨ k = lm ∨ k = lx) → ¬ own st k → st'.heap k = st.heap k

/-- What the caller has before a run: an `EllStable`, an oracle and options, none of which shares anything with the oracle. -/
structure StableReady (A : Arith) (own : St W → ℕ → Prop) (Q : St W → O → Prop) (l lm lx : ℕ) (vopt : Val) (opts : Options ℝ) (st : St W) (o : O) (e : EllStable n) : Prop where
  ell : StableAt A st l lm lx e
  oracle : Q st o
  options : OptionsAt A st vopt opts
  apart : ∀ k, k = l ∨ k = lm ∨ k = lx → ¬ own st k
  optlt : ∀ k, vopt = .ref k → k < st.next

section

variable {A : Arith} {own : St W → ℕ → Prop} {Q : St W → O → Prop} {l lm lx : ℕ} {vo vopt : Val} {opts : Options ℝ} {ext : ℕ → String → List Val → M W Val} {fuel : ℕ}

theorem StableReady.running {old : ℕ → Prop} {wr : St W → ℕ → Prop} {st : St W} {o : O} {e : EllStable n} (h : StableReady A own Q l lm lx vopt opts st o e) :
    Running (n := n) A old own wr (fun k => k = l ∨ k = lm ∨ k = lx) (fun st e => StableAt A st l lm lx e) Q vopt opts st st o e none .none :=
  ⟨h.ell, h.oracle, h.options, h.apart, rfl, h.optlt, .refl _ _ _⟩

theorem stableAfter_of_running {old : ℕ → Prop} {wr : St W → ℕ → Prop} {st st' : St W} {o : O} {e : EllStable n} {xb : Option (Vec n)} {vb : Val}
    (h : Running (n := n) A old own wr (fun k => k = l ∨ k = lm ∨ k = lx) (fun st e => StableAt A st l lm lx e) Q vopt opts st st' o e xb vb) : StableAfter A own Q l lm lx st st' o e :=
  ⟨h.space, h.oracle, fun k hk hc ho => (h.since.same k hk hc ho).1⟩

/-- **C101.** `cutting_plane_feas(omega, space, options)` of the text, on an `EllStable` of the text, for an oracle whose gradients are its own arrays or new ones. -/
theorem C101_feas (hA : Literals A) {omega : OracleFeas O (Vec n) (Cut n)} (hQ : FeasOracle A ext (fuel + 7) vo own omega Q False) {st : St W} {o : O} {e : EllStable n}
    (h : StableReady A own Q l lm lx vopt opts st o e) :
    ∃ st', call (mach A ext) (fuel + 8) (.glob "cutting_plane_feas") [vo, .ref l, vopt] st
        = (match (feas omega (A.stableSpace n) ltReal o e opts).2.2 with
          | .error f => .exc (excOf f) st'
          | .ok (none, k) => .ok (.tuple [.none, .int k]) st'
          | .ok (some _, k) => .ok (.tuple [.ref lx, .int k]) st')
      ∧ StableAfter A own Q l lm lx st st' (feas omega (A.stableSpace n) ltReal o e opts).1 (feas omega (A.stableSpace n) ltReal o e opts).2.1
      ∧ ∀ x k, (feas omega (A.stableSpace n) ltReal o e opts).2.2 = .ok (some x, k) → st'.heap lx = some (.vec n x) := by
  have hsp := stable_space (n := n) hA ext fuel l lm lx
  have hh := call_feas (fuel := fuel + 6) (Running.sim A ext (fuel + 7) (.ref l) vopt _ (fun _ => False) own own _ Q opts st hsp) (Running.feasSim A ext (fuel + 7) (.ref l) vo vopt _ _ own _ Q opts st hsp hQ)
    (Running.biasSim A ext (fuel + 7) (.ref l) vopt _ _ own _ Q opts st hsp hQ.toOracleAt) h.running
  rcases hr : feas omega (A.stableSpace n) ltReal o e opts with ⟨o', e', f | ⟨_ | x, k⟩⟩ <;> rw [hr] at hh <;> simp only [FeasOutcome] at hh
  · obtain ⟨st', h1, h2⟩ := hh
    exact ⟨st', h1, stableAfter_of_running h2, nofun⟩
  · obtain ⟨st', h1, h2⟩ := hh
    exact ⟨st', h1, stableAfter_of_running h2, by simp⟩
  · obtain ⟨v, st', h1, ⟨lp, rfl, -, hlp, hc⟩, h2⟩ := hh
    have hlx : lp = lx := by
      rcases hc with rfl | rfl | rfl
      · obtain ⟨_, _, hl, -, -⟩ := h2.space.obj
        rw [hl] at hlp; simp at hlp
      · rw [h2.space.mq] at hlp; simp [Obj.square] at hlp
      · rfl
    subst hlx
    refine ⟨st', h1, stableAfter_of_running h2, fun y j hy => ?_⟩
    simp only [Except.ok.injEq, Prod.mk.injEq, Option.some.injEq] at hy
    rw [hlp, hy.1]

/-- **C101.** `cutting_plane_optim(omega, space, gamma, options)` of the text, on an `EllStable`. -/
theorem C101_optim (hA : Literals A) {omega : OracleOptim O (Vec n) (Cut n) G} {isG : G → Val → Prop} (hQ : OptimOracle A ext (fuel + 7) vo own omega isG Q False) {st : St W} {o : O} {e : EllStable n}
    (h : StableReady A own Q l lm lx vopt opts st o e) {g : G} {vg : Val} (hg : isG g vg) :
    ∃ st' vb vg', call (mach A ext) (fuel + 8) (.glob "cutting_plane_optim") [vo, .ref l, vg, vopt] st
        = (match (optim omega (A.stableSpace n) ltReal o e g opts).2.2 with
          | .error f => .exc (excOf f) st'
          | .ok (_, _, k) => .ok (.tuple [vb, vg', .int k]) st')
      ∧ StableAfter A own Q l lm lx st st' (optim omega (A.stableSpace n) ltReal o e g opts).1 (optim omega (A.stableSpace n) ltReal o e g opts).2.1
      ∧ ∀ xb g' k, (optim omega (A.stableSpace n) ltReal o e g opts).2.2 = .ok (xb, g', k) → isG g' vg' ∧ Returned (fun _ => False) st st' xb vb := by
  have hsp := stable_space (n := n) hA ext fuel l lm lx
  have hh := call_optim (fuel := fuel + 6) (Running.sim A ext (fuel + 7) (.ref l) vopt _ (fun _ => False) own own _ Q opts st hsp) (Running.optimSim A ext (fuel + 7) (.ref l) vo vopt _ _ own _ Q opts st hsp hQ)
    (Running.copySim A ext (fuel + 7) (.ref l) vopt _ _ own _ Q opts st hsp hQ.toOracleAt)
    (Running.biasSim A ext (fuel + 7) (.ref l) vopt _ _ own _ Q opts st hsp hQ.toOracleAt) (Running.centralSim A ext (fuel + 7) (.ref l) vopt _ _ own _ Q opts st hsp hQ.toOracleAt) h.running hg
  rcases hr : optim omega (A.stableSpace n) ltReal o e g opts with ⟨o', e', f | ⟨xb, g', k⟩⟩ <;> rw [hr] at hh <;> simp only [OptimOutcome] at hh
  · obtain ⟨st', xb, vb, h1, h2⟩ := hh
    exact ⟨st', .none, .none, h1, stableAfter_of_running h2, nofun⟩
  · obtain ⟨st', vb, vg', h1, h2, h3⟩ := hh
    refine ⟨st', vb, vg', h1, stableAfter_of_running h3, fun xb' g'' k' heq => ?_⟩
    simp only [Except.ok.injEq, Prod.mk.injEq] at heq
    obtain ⟨rfl, rfl, -⟩ := heq
    exact ⟨h2, returned_of_kept h3.kept⟩

/-- **C101.** `cutting_plane_optim_q(omega, space_q, gamma, options)` of the text; the point that is returned is in a new array or in one of the oracle, on an `EllStable`. -/
theorem C101_optim_q (hA : Literals A) {omega : OracleOptimQ O (Vec n) (Cut n) G} {isG : G → Val → Prop} {wr : St W → ℕ → Prop} (hQ : OptimQOracle A ext (fuel + 7) vo own wr omega isG Q False) {st : St W} {o : O} {e : EllStable n}
    (h : StableReady A own Q l lm lx vopt opts st o e) {g : G} {vg : Val} (hg : isG g vg) :
    ∃ st' vb vg', call (mach A ext) (fuel + 8) (.glob "cutting_plane_optim_q") [vo, .ref l, vg, vopt] st
        = (match (optimQ omega (A.stableSpace n) ltReal o e g opts).2.2 with
          | .error f => .exc (excOf f) st'
          | .ok (_, _, k) => .ok (.tuple [vb, vg', .int k]) st')
      ∧ StableAfter A own Q l lm lx st st' (optimQ omega (A.stableSpace n) ltReal o e g opts).1 (optimQ omega (A.stableSpace n) ltReal o e g opts).2.1
      ∧ ∀ xb g' k, (optimQ omega (A.stableSpace n) ltReal o e g opts).2.2 = .ok (xb, g', k) → isG g' vg' ∧ Returned (own st) st st' xb vb := by
  have hsp := stable_space (n := n) hA ext fuel l lm lx
  have hh := call_optimQ (fuel := fuel + 6) (Running.sim A ext (fuel + 7) (.ref l) vopt _ _ own wr _ Q opts st hsp) (Running.optimQSim A ext (fuel + 7) (.ref l) vo vopt _ own wr _ Q opts st hsp hQ)
    (Running.qSim A ext (fuel + 7) (.ref l) vo vopt _ _ own wr _ Q opts st hsp hQ) h.running hg
  rcases hr : optimQ omega (A.stableSpace n) ltReal o e g opts with ⟨o', e', f | ⟨xb, g', k⟩⟩ <;> rw [hr] at hh <;> simp only [OptimOutcome] at hh
  · obtain ⟨st', xb, vb, h1, h2⟩ := hh
    exact ⟨st', .none, .none, h1, stableAfter_of_running h2, nofun⟩
  · obtain ⟨st', vb, vg', h1, h2, h3⟩ := hh
    refine ⟨st', vb, vg', h1, stableAfter_of_running h3, fun xb' g'' k' heq => ?_⟩
    simp only [Except.ok.injEq, Prod.mk.injEq] at heq
    obtain ⟨rfl, rfl, -⟩ := heq
    exact ⟨h2, returned_of_kept h3.kept⟩

/-- After `EllStable(val, x)` everything is ready for a run, if the oracle and the options were. -/
theorem stableReady_init (hA : Literals A) (hn : A.rnd n = n) (hQ : OracleAt own Q) {st : St W} {o : O} (ho : Q st o) (hopt : OptionsAt A st vopt opts) (hlt : ∀ k, vopt = .ref k → k < st.next)
    {val : InitVal n} {v : Val} (hv : IsInit A st val v) {lx : ℕ} {x : Vec n} (hx : st.heap lx = some (.vec n x)) (hltx : lx < st.next) (hox : ¬ own st lx) {e : EllStable n} (he : A.stableInit val x = .ok e) :
    ∃ s1 lm, call (mach A ext) (fuel + 3) (.glob "EllStable") [v, .ref lx] st = .ok (.ref st.next) s1 ∧ StableReady A own Q st.next lm lx vopt opts s1 o e := by
  obtain ⟨s1, h1, h2, h3⟩ := stable_init hA (ext := ext) fuel hn hv hx hltx
  rw [he] at h1
  obtain ⟨lm, hlm, h4⟩ := h3 e he
  obtain ⟨hq, hown⟩ := hQ.stable ho (st' := s1) ⟨h2.next, h2.world, fun k hk _ => h2.same k hk not_false⟩
  refine ⟨s1, lm, h1, h4, hq, hopt.mono fun k _ hk _ => h2.same k (hlt k hk) not_false, fun k hk hok => ?_, fun k hk => (hlt k hk).trans_le h2.next⟩
  have hk' := hQ.bound ho k (hown k hok)
  rcases hk with rfl | rfl | rfl
  · exact lt_irrefl _ hk'
  · exact lt_asymm hk' hlm
  · exact hox (hown k hok)

end

/-! ### In exact arithmetic -/

theorem exact_stableSpace : Arith.exact.stableSpace n = EllStable.space n := by
  have h := fun (e : EllStable n) (m : Method) (cut : Cut n) => C95_exact.2 e m cut
  simp only [Arith.stableSpace, EllStable.space]
  congr 1 <;> funext e cut
  · exact h e .bias cut
  · exact h e .central cut
  · exact h e .q cut

section

variable {own own' : St W → ℕ → Prop} {Q Q' : St W → O → Prop} {vo vo' vopt vopt' : Val} {opts : Options ℝ} {ext ext' : ℕ → String → List Val → M W Val} {fuel fuel' : ℕ}

/-- **C101.** `cutting_plane_feas` of the text with `EllStable` and with `Ell`, started from the same ellipsoid with the same oracle: they return the same point after the same number of iterations, or raise the same exception, unless
the run with `EllStable` ends in a `ZeroDivisionError`. -/
theorem C101_feas_same {omega : OracleFeas O (Vec n) (Cut n)} {I : O → Prop} (hI : ∀ o x, I o → I (omega o x).1) (hω : ∀ o x o' cut, I o → omega o x = (o', .ok (some cut)) → UsableCut cut)
    (hQ : FeasOracle Arith.exact ext (fuel + 7) vo own omega Q False) (hQ' : FeasOracle Arith.exact ext' (fuel' + 7) vo' own' omega Q') {st st' : St W} {o : O} (hi : I o) {s : EllStable n} {e : Ell n} (hse : InStep s e)
    {l lm lx l' lm' lx' : ℕ} (h : StableReady Arith.exact own Q l lm lx vopt opts st o s) (h' : Ready Arith.exact own' Q' l' lm' lx' vopt' opts st' o e) :
    (∃ s1, call (mach Arith.exact ext) (fuel + 8) (.glob "cutting_plane_feas") [vo, .ref l, vopt] st = .exc "ZeroDivisionError" s1) ∨
    ∃ s1 s1', (∃ f, call (mach Arith.exact ext) (fuel + 8) (.glob "cutting_plane_feas") [vo, .ref l, vopt] st = .exc f s1
          ∧ call (mach Arith.exact ext') (fuel' + 8) (.glob "cutting_plane_feas") [vo', .ref l', vopt'] st' = .exc f s1')
      ∨ (∃ k, call (mach Arith.exact ext) (fuel + 8) (.glob "cutting_plane_feas") [vo, .ref l, vopt] st = .ok (.tuple [.none, .int k]) s1
          ∧ call (mach Arith.exact ext') (fuel' + 8) (.glob "cutting_plane_feas") [vo', .ref l', vopt'] st' = .ok (.tuple [.none, .int k]) s1')
      ∨ (∃ k x, call (mach Arith.exact ext) (fuel + 8) (.glob "cutting_plane_feas") [vo, .ref l, vopt] st = .ok (.tuple [.ref lx, .int k]) s1
          ∧ call (mach Arith.exact ext') (fuel' + 8) (.glob "cutting_plane_feas") [vo', .ref l', vopt'] st' = .ok (.tuple [.ref lx', .int k]) s1'
          ∧ s1.heap lx = some (.vec n x) ∧ s1'.heap lx' = some (.vec n x)) := by
  obtain ⟨s1, h1, -, h2⟩ := C101_feas literals_exact hQ h
  obtain ⟨s1', h3, -, h4⟩ := C98_feas literals_exact hQ' h'
  rw [exact_stableSpace] at h1 h2
  rw [exact_space] at h3 h4
  rcases C74_feas_same_outcome hI hω o hi s e hse opts with ⟨h5, -⟩ | ⟨-, h5⟩
  · rw [h5] at h1
    exact .inl ⟨s1, h1⟩
  · rw [h5] at h1 h2
    refine .inr ⟨s1, s1', ?_⟩
    rcases hr : (feas omega (Ell.space n) ltReal o e opts).2.2 with f | ⟨_ | x, k⟩ <;> rw [hr] at h1 h2 h3 h4
    · exact .inl ⟨_, h1, h3⟩
    · exact .inr (.inl ⟨_, h1, h3⟩)
    · exact .inr (.inr ⟨_, x, h1, h3, h2 x k rfl, h4 x k rfl⟩)

/-- **C101.** From the text alone: `space = EllStable(R ** 2, x)` and `cutting_plane_feas(omega, space, options)` return a point of `F`, if `F` lies in the ball, has a positive volume, the tolerance is not positive, and there are
enough iterations. -/
theorem C101_feas_finds {omega : OracleFeas O (Vec n) (Cut n)} {I : O → Prop} {F : Set (Vec n)} (hn : 2 ≤ n) (hω : ProperOracle I F omega) (hQ : FeasOracle Arith.exact ext (fuel + 7) vo own omega Q False)
    {st : St W} {o : O} (hI : I o) (ho : Q st o) (hopt : OptionsAt Arith.exact st vopt opts) (hlt : ∀ k, vopt = .ref k → k < st.next) {lx : ℕ} {x : Vec n} (hx : st.heap lx = some (.vec n x)) (hltx : lx < st.next)
    (hox : ¬ own st lx) {R : ℝ} (hR : 0 < R) (hF : F ⊆ ball x R) (hv : MeasureTheory.volume F ≠ 0) (htol : opts.tolerance ≤ 0)
    (hmax : 2 * ((n : ℝ) + 1) * Real.log ((MeasureTheory.volume (ball x R)).toReal / (MeasureTheory.volume F).toReal) < opts.maxIters) :
    ∃ s1 s2 k y, call (mach Arith.exact ext) (fuel + 3) (.glob "EllStable") [.num (R ^ 2), .ref lx] st = .ok (.ref st.next) s1
      ∧ call (mach Arith.exact ext) (fuel + 8) (.glob "cutting_plane_feas") [vo, .ref st.next, vopt] s1 = .ok (.tuple [.ref lx, .int (k : ℕ)]) s2
      ∧ s2.heap lx = some (.vec n y) ∧ y ∈ F ∧ (k : ℝ) ≤ 2 * ((n : ℝ) + 1) * Real.log ((MeasureTheory.volume (ball x R)).toReal / (MeasureTheory.volume F).toReal) := by
  obtain ⟨s, h0, hs, hreg⟩ := stable_init_ball hR x hn
  obtain ⟨s1, lm, h1, h2⟩ := stableReady_init literals_exact rfl hQ.toOracleAt ho hopt hlt (ext := ext) (fuel := fuel) (.num (R ^ 2)) hx hltx hox ((C95_exact.1 _ x).trans h0)
  have hb : stableBound s F = 2 * ((n : ℝ) + 1) * Real.log ((MeasureTheory.volume (ball x R)).toReal / (MeasureTheory.volume F).toReal) := by unfold stableBound; rw [hreg]
  obtain ⟨o', s', y, k, h3, h4, h5⟩ := C75_stable_feas_finds hω o hI s hs (by rw [hreg]; exact hF) hv opts htol (by rw [hb]; exact hmax)
  obtain ⟨s2, h6, -, h7⟩ := C101_feas literals_exact hQ h2
  rw [exact_stableSpace, h3] at h6 h7
  exact ⟨s1, s2, k, y, h1, h6, h7 y k rfl, h4, by rw [← hb]; exact h5⟩

/-- **C101.** What a run of `cutting_plane_feas` of the text with an `EllStable` returns: the array of the centre, with a point of `F`, or `None`, and then, if `F` is not empty, the iterations are used up or `tsq` is below the
tolerance. -/
theorem C101_feas_sound {omega : OracleFeas O (Vec n) (Cut n)} {I : O → Prop} {F : Set (Vec n)} (hω : SeparatingOracle I F omega) (hg : ∀ o x o' cut, I o → omega o x = (o', .ok (some cut)) → cut.1 ≠ 0)
    (hQ : FeasOracle Arith.exact ext (fuel + 7) vo own omega Q False) {st s2 : St W} {o : O} {s : EllStable n} {l lm lx : ℕ} (hI : I o) (h : StableReady Arith.exact own Q l lm lx vopt opts st o s) (hs : s.Sound)
    (hF : F ⊆ s.region) {v : Val} {k : ℕ} (hr : call (mach Arith.exact ext) (fuel + 8) (.glob "cutting_plane_feas") [vo, .ref l, vopt] st = .ok (.tuple [v, .int k]) s2) :
    (v = .ref lx ∧ ∃ y ∈ F, s2.heap lx = some (.vec n y)) ∨
      (v = .none ∧ (F.Nonempty → k = opts.maxIters ∨ ∃ s' : EllStable n, StableAt Arith.exact s2 l lm lx s' ∧ s'.tsq < opts.tolerance)) := by
  obtain ⟨s2', h6, h7, h8⟩ := C101_feas literals_exact hQ h
  obtain ⟨-, -, h9, h10⟩ := C75_stable_infeasibility_sound hω hg o hI s hs hF opts
  rw [exact_stableSpace] at h6 h7 h8
  rw [hr] at h6
  rcases hres : feas omega (EllStable.space n) ltReal o s opts with ⟨o', e', f | ⟨_ | y, k'⟩⟩ <;> rw [hres] at h6 h7 h8 <;> simp at h6
  · obtain ⟨⟨rfl, rfl⟩, rfl⟩ := h6
    refine .inr ⟨rfl, fun hne => ?_⟩
    rcases h9 o' e' k hne hres with h | h
    · exact .inl h
    · exact .inr ⟨e', h7.ell, h⟩
  · obtain ⟨⟨rfl, rfl⟩, rfl⟩ := h6
    exact .inl ⟨rfl, y, h10 o' e' y k hres, h8 y k rfl⟩

/-- **C101.** `cutting_plane_optim` of the text with an `EllStable`: after enough iterations, with a tolerance that is not positive, the value that it returns is at least `γ*`, for every `γ*` whose level set has a positive volume. -/
theorem C101_optim_bound [LinearOrder G] {omega : OracleOptim O (Vec n) (Cut n) G} {isG : G → Val → Prop} (hinj : ∀ g g' v, isG g v → isG g' v → g = g') {I : O → Prop} {L : G → Set (Vec n)} (hL : Antitone L)
    (hω : ProperLevelOracle I L omega) (hpair : ∀ o x γ o' cut γ1, I o → omega o x γ = (o', .ok (cut, some γ1)) → cut.2.PairNonneg)
    (hQ : OptimOracle Arith.exact ext (fuel + 7) vo own omega isG Q False) {st s2 : St W} {o : O} {s : EllStable n} {l lm lx : ℕ} (hI : I o) (h : StableReady Arith.exact own Q l lm lx vopt opts st o s) (hs : s.Sound)
    {g0 γs : G} {vg : Val} (hg : isG g0 vg) (hF : L g0 ⊆ s.region) (hv : MeasureTheory.volume (L γs) ≠ 0) (htol : opts.tolerance ≤ 0) (hmax : stableBound s (L γs) < opts.maxIters) {vb vg' : Val} {k : ℕ} {γ : G}
    (hγ : isG γ vg') (hr : call (mach Arith.exact ext) (fuel + 8) (.glob "cutting_plane_optim") [vo, .ref l, vg, vopt] st = .ok (.tuple [vb, vg', .int k]) s2) : γs ≤ γ := by
  obtain ⟨s2', vb', vg'', h1, -, h3⟩ := C101_optim literals_exact hQ h hg
  rw [exact_stableSpace] at h1 h3
  rw [hr] at h1
  rcases hres : optim omega (EllStable.space n) ltReal o s g0 opts with ⟨o', e', f | ⟨xb, γ', k'⟩⟩ <;> rw [hres] at h1 h3 <;> simp at h1
  obtain ⟨⟨rfl, rfl, rfl⟩, rfl⟩ := h1
  obtain ⟨h4, -⟩ := h3 xb γ' k rfl
  rw [hinj γ γ' _ hγ h4]
  exact C75_stable_optim_bound hL hω hpair o hI s hs g0 γs hF hv opts htol hmax o' e' xb γ' k hres

end

/-! ### The LMI oracles -/

section

variable {q m : ℕ} {vo vopt : Val} {opts : Options ℝ} {ext : ℕ → String → List Val → M W Val} {fuel : ℕ}

/-- The points of an ellipsoid at which the matrix is not negative have a positive volume, if it is positive definite at one of them. -/
theorem witness_volume {M : Vec q → Matrix (Fin m) (Fin m) ℝ} (hM : AffineFamily M) {e : Ell q} (he : e.WF) {y0 : Vec q} (hy0 : y0 ∈ e.region) {μ Λ : ℝ} (hμ : 0 < μ) (hΛ : 0 ≤ Λ)
    (h1 : ∀ v, μ * (v ⬝ᵥ v) ≤ v ⬝ᵥ (M y0 *ᵥ v)) (h2 : ∀ y ∈ e.region, ∀ v, -Λ * (v ⬝ᵥ v) ≤ v ⬝ᵥ (M y *ᵥ v)) :
    MeasureTheory.volume {y | y ∈ e.region ∧ QuadNonneg (M y)} ≠ 0 := by
  have hs : 0 < μ + Λ := by linarith
  have hε0 : 0 < μ / (μ + Λ) := div_pos hμ hs
  have hε1 : μ / (μ + Λ) ≤ 1 := by rw [div_le_one hs]; linarith
  refine (volBound_le_of_shrink he (A := e.region) (F := {y | y ∈ e.region ∧ QuadNonneg (M y)}) y0 hε0 (WF.volume_ne_zero he) (fun y hy => ⟨ellipsoid_convex e he hy0 hy (by linarith) hε0.le (by ring), fun v => ?_⟩) subset_rfl fun y hy => hy.1).1
  rw [hM]
  have e1 : (1 - μ / (μ + Λ)) * μ = μ / (μ + Λ) * Λ := by field_simp; ring
  have b1 := mul_le_mul_of_nonneg_left (h1 v) (show 0 ≤ 1 - μ / (μ + Λ) by linarith)
  have b2 := mul_le_mul_of_nonneg_left (h2 y hy v) hε0.le
  have b3 : (1 - μ / (μ + Λ)) * (μ * (v ⬝ᵥ v)) = μ / (μ + Λ) * Λ * (v ⬝ᵥ v) := by rw [← mul_assoc, e1]
  linarith

/-- A run of `cutting_plane_feas` with `EllStable` on such an oracle. -/
theorem witness_stable_run {I : O → Prop} {M : Vec q → Matrix (Fin m) (Fin m) ℝ} (hM : AffineFamily M) {omega : OracleFeas O (Vec q) (Cut q)} (hω : WitnessOracle I M omega) (o : O) (ho : I o) (s : EllStable q) (hs : s.Sound)
    (y0 : Vec q) (hy0 : y0 ∈ s.region) (μ Λ : ℝ) (hμ : 0 < μ) (hΛ : 0 ≤ Λ) (h1 : ∀ v, μ * (v ⬝ᵥ v) ≤ v ⬝ᵥ (M y0 *ᵥ v)) (h2 : ∀ y ∈ s.region, ∀ v, -Λ * (v ⬝ᵥ v) ≤ v ⬝ᵥ (M y *ᵥ v))
    (opts : Options ℝ) (hmax : 2 * q * ((q : ℝ) + 1) * Real.log ((μ + Λ) / μ) < opts.maxIters) (htol : opts.tolerance ≤ μ ^ 2) :
    ∃ o' s' y k, feas omega (EllStable.space q) ltReal o s opts = (o', s', .ok (some y, k)) ∧ (k : ℝ) ≤ 2 * q * ((q : ℝ) + 1) * Real.log ((μ + Λ) / μ) ∧ QuadPos (M y) := by
  have hpos : QuadPos (M y0) := fun v hv => lt_of_lt_of_le (mul_pos hμ (lt_of_le_of_ne (dot_self_nonneg' v) fun h => hv (dotProduct_self_eq_zero.mp h.symm))) (h1 v)
  obtain ⟨e, hin, hreg⟩ := hs.inStep
  rw [← hreg] at hy0 h2
  have hT := thick_of_volume (witness_volume hM hin.2.1 hy0 hμ hΛ h1 h2)
  have hω' := hω.cuts hpos (F := {y | y ∈ e.region ∧ QuadNonneg (M y)}) fun y hy => hy.2
  obtain ⟨o', e', res, k, h3, h4, h5⟩ := witness_run hM hω o ho e hin.2.1 y0 hy0 hpos μ Λ hμ hΛ h1 h2 opts hmax
  obtain ⟨y, rfl, h8⟩ : ∃ y, res = some y ∧ QuadPos (M y) := by
    rcases h5 with h5 | ⟨-, h6, h7⟩
    · exact h5
    · linarith
  rcases C74_feas_same_outcome hω'.inv (fun o x o' cut hi ha => ⟨(hω'.shape o x o' cut hi ha).2, by
      obtain ⟨g, ep, v, rfl, h6, -⟩ := hω.cut o x o' cut hi ha
      exact CutChoice.FirstNonneg.pair (c := .scalar ep) h6⟩) o ho s e hin opts with ⟨-, l, o1, e1, o2, cut, t, a, hbad⟩ | ⟨ha, hr⟩
  · exfalso
    obtain ⟨w, hF1, -⟩ := t.thick hω' hT ho hin.2.1 (fun y hy => hy.1)
    have hi := t.inv_oracle hω'.toCuttingOracle ho
    obtain ⟨h0, hg1⟩ := hω'.shape _ _ _ _ hi a
    obtain ⟨e2, hu, w2, -⟩ := Ell.thick_bias w hT hF1 h0 hg1 (hω'.cut _ _ _ _ hi a).2
    rw [hu] at hbad
    exact hbad w2
  · rw [h3] at ha hr
    exact ⟨o', _, y, k, Prod.ext ha (Prod.ext rfl hr), h4, h8⟩

theorem witness_stable_source {I : O → Prop} {M : Vec q → Matrix (Fin m) (Fin m) ℝ} {omega : OracleFeas O (Vec q) (Cut q)} {own : St W → ℕ → Prop} {Q : St W → O → Prop} (hq : 2 ≤ q) (hM : AffineFamily M)
    (hω : WitnessOracle I M omega) (hQ : FeasOracle Arith.exact ext (fuel + 7) vo own omega Q False) {st : St W} {o : O} (hI : I o) (ho : Q st o) (hopt : OptionsAt Arith.exact st vopt opts)
    (hlt : ∀ k, vopt = .ref k → k < st.next) {lx : ℕ} {x : Vec q} (hx : st.heap lx = some (.vec q x)) (hltx : lx < st.next) (hox : ¬ own st lx) {R : ℝ} (hR : 0 < R) :
    ∃ s1, call (mach Arith.exact ext) (fuel + 3) (.glob "EllStable") [.num (R ^ 2), .ref lx] st = .ok (.ref st.next) s1
      ∧ Finds M x R opts lx (call (mach Arith.exact ext) (fuel + 8) (.glob "cutting_plane_feas") [vo, .ref st.next, vopt] s1) := by
  obtain ⟨s, h0, hs, hreg⟩ := stable_init_ball hR x hq
  obtain ⟨s1, lm, h1, h2⟩ := stableReady_init literals_exact rfl hQ.toOracleAt ho hopt hlt (ext := ext) (fuel := fuel) (.num (R ^ 2)) hx hltx hox ((C95_exact.1 _ x).trans h0)
  obtain ⟨s2, h6, -, h7⟩ := C101_feas literals_exact hQ h2
  rw [exact_stableSpace] at h6 h7
  refine ⟨s1, h1, ⟨fun v k s2' hr => ?_, fun y0 hy0 μ Λ hμ hΛ b1 b2 hmax htol => ?_⟩⟩
  · rw [h6] at hr
    rcases hres : feas omega (EllStable.space q) ltReal o s opts with ⟨o', e', f | ⟨_ | y, k'⟩⟩ <;> rw [hres] at hr h7 <;> simp at hr
    · exact .inl hr.1.1.symm
    · obtain ⟨⟨rfl, -⟩, rfl⟩ := hr
      refine .inr ⟨rfl, y, h7 y k' rfl, ?_⟩
      obtain ⟨-, -, l, o1, ht, -, ha⟩ := C20_feas_returns_accepted _ _ _ _ _ _ _ _ _ _ hres
      exact hω.accept _ _ _ (ht.inv_oracle (WitnessOracle.cutting hω) hI) ha
  · obtain ⟨o', s', y, k, h3, h4, h5⟩ := witness_stable_run hM hω o hI s hs y0 (by rw [hreg]; exact hy0) μ Λ hμ hΛ b1 (by rw [hreg]; exact b2) opts hmax htol
    rw [h3] at h6 h7
    exact ⟨s2, k, y, h6, h7 y k rfl, h5, h4⟩

/-- **C101.** `LMIOracle(mat_f, mat_b)`, `EllStable(R**2, x)`, then `cutting_plane_feas` of the text, in exact arithmetic: what C100 says of `Ell`. -/
theorem C101_lmi (hq : 2 ≤ q) {lf : Fin q → ℕ} {matF : Fin q → Mat m} {lb : ℕ} {matB : Mat m} (hF : ∀ k, (matF k).IsSymm) (hB : matB.IsSymm) {st : St W} (hm : MatsAt st lf matF (some (lb, matB)))
    (hopt : OptionsAt Arith.exact st vopt opts) (hlt : ∀ k, vopt = .ref k → k < st.next) {lx : ℕ} {x : Vec q} (hx : st.heap lx = some (.vec q x)) (hltx : lx < st.next) {R : ℝ} (hR : 0 < R) :
    ∃ s0 s1, call (mach Arith.exact ext) (fuel + 3) (.glob "LMIOracle") [.list (List.ofFn fun k => .ref (lf k)), .ref lb] st = .ok (.ref st.next) s0
      ∧ call (mach Arith.exact ext) (fuel + 3) (.glob "EllStable") [.num (R ^ 2), .ref lx] s0 = .ok (.ref s0.next) s1
      ∧ Finds (lmiMat matF matB) x R opts lx (call (mach Arith.exact ext) (fuel + 8) (.glob "cutting_plane_feas") [.ref st.next, .ref s0.next, vopt] s1) := by
  obtain ⟨s0, lm, lw, ls, h1, h2, hw, hf⟩ := lmi_init (A := Arith.exact) (ext := ext) (fuel := fuel) hm
  have hQ := lmi_assess (fuel := fuel + 3) (ext := ext) literals_exact (D := ⟨"LMIOracle", st.next, lm, lw, ls, lf, matF, some (lb, matB)⟩) rfl rfl (W := W) (free := False)
  rw [lmiOmega_exact] at hQ
  obtain ⟨s1, h3, h4⟩ := witness_stable_source (fuel := fuel) hq (lmiMat_affine matF matB) (lmiOmega_witness matF matB hF hB) hQ h2.dim h2 (hopt.mono fun k _ hk _ => hf.same k (hlt k hk) not_false)
    (fun k hk => (hlt k hk).trans_le hf.next) ((hf.same lx hltx not_false).trans hx) (hltx.trans_le hf.next) (lmi_apart h2 hm hx hltx hw hf) hR
  exact ⟨s0, s1, h1, h3, h4⟩

/-- **C101.** The same for `LMIOldOracle`. -/
theorem C101_lmi_old (hq : 2 ≤ q) {lf : Fin q → ℕ} {matF : Fin q → Mat m} {lb : ℕ} {matB : Mat m} (hF : ∀ k, (matF k).IsSymm) (hB : matB.IsSymm) {st : St W} (hm : MatsAt st lf matF (some (lb, matB)))
    (hopt : OptionsAt Arith.exact st vopt opts) (hlt : ∀ k, vopt = .ref k → k < st.next) {lx : ℕ} {x : Vec q} (hx : st.heap lx = some (.vec q x)) (hltx : lx < st.next) {R : ℝ} (hR : 0 < R) :
    ∃ s0 s1, call (mach Arith.exact ext) (fuel + 3) (.glob "LMIOldOracle") [.list (List.ofFn fun k => .ref (lf k)), .ref lb] st = .ok (.ref st.next) s0
      ∧ call (mach Arith.exact ext) (fuel + 3) (.glob "EllStable") [.num (R ^ 2), .ref lx] s0 = .ok (.ref s0.next) s1
      ∧ Finds (lmiMat matF matB) x R opts lx (call (mach Arith.exact ext) (fuel + 8) (.glob "cutting_plane_feas") [.ref st.next, .ref s0.next, vopt] s1) := by
  obtain ⟨s0, lm, lw, ls, h1, h2, hw, hf⟩ := lmiOld_init (A := Arith.exact) (ext := ext) (fuel := fuel) hm
  have hQ := lmiOld_assess (fuel := fuel + 3) (ext := ext) literals_exact (D := ⟨"LMIOldOracle", st.next, lm, lw, ls, lf, matF, some (lb, matB)⟩) rfl rfl (W := W) (free := False)
  rw [lmiOldOmega_exact] at hQ
  obtain ⟨s1, h3, h4⟩ := witness_stable_source (fuel := fuel) hq (lmiMat_affine matF matB) (lmiOmega_witness matF matB hF hB) hQ h2.dim h2 (hopt.mono fun k _ hk _ => hf.same k (hlt k hk) not_false)
    (fun k hk => (hlt k hk).trans_le hf.next) ((hf.same lx hltx not_false).trans hx) (hltx.trans_le hf.next) (lmi_apart h2 hm hx hltx hw hf) hR
  exact ⟨s0, s1, h1, h3, h4⟩

/-- **C101.** `LMI0Oracle(mat_f)`. -/
theorem C101_lmi0 (hq : 2 ≤ q) {lf : Fin q → ℕ} {matF : Fin q → Mat m} (hF : ∀ k, (matF k).IsSymm) {st : St W} (hm : MatsAt st lf matF none)
    (hopt : OptionsAt Arith.exact st vopt opts) (hlt : ∀ k, vopt = .ref k → k < st.next) {lx : ℕ} {x : Vec q} (hx : st.heap lx = some (.vec q x)) (hltx : lx < st.next) {R : ℝ} (hR : 0 < R) :
    ∃ s0 s1, call (mach Arith.exact ext) (fuel + 3) (.glob "LMI0Oracle") [.list (List.ofFn fun k => .ref (lf k))] st = .ok (.ref st.next) s0
      ∧ call (mach Arith.exact ext) (fuel + 3) (.glob "EllStable") [.num (R ^ 2), .ref lx] s0 = .ok (.ref s0.next) s1
      ∧ Finds (lmi0Mat matF) x R opts lx (call (mach Arith.exact ext) (fuel + 8) (.glob "cutting_plane_feas") [.ref st.next, .ref s0.next, vopt] s1) := by
  obtain ⟨s0, h0⟩ := lmi0_init (A := Arith.exact) (ext := ext) (fuel := fuel) hm
  rw [LMI0Oracle.init, if_neg (by omega)] at h0
  obtain ⟨h1, ⟨lm, lw, ls, h2, hw⟩, hf⟩ := h0
  have hQ := lmi0_assess (fuel := fuel + 3) (ext := ext) literals_exact (D := ⟨"LMI0Oracle", st.next, lm, lw, ls, lf, matF, none⟩) rfl (W := W) (free := False)
  rw [lmi0Omega_exact] at hQ
  obtain ⟨s1, h3, h4⟩ := witness_stable_source (fuel := fuel) hq (lmi0Mat_affine matF) (lmi0Omega_witness matF hF) hQ h2.dim h2 (hopt.mono fun k _ hk _ => hf.same k (hlt k hk) not_false)
    (fun k hk => (hlt k hk).trans_le hf.next) ((hf.same lx hltx not_false).trans hx) (hltx.trans_le hf.next) (lmi_apart h2 hm hx hltx hw hf) hR
  exact ⟨s0, s1, h1, h3, h4⟩

end

/-! ### The array of the centre as gradient -/

/-- `omega` in two dimensions, with a diagonal matrix and a gradient along the first axis. -/
theorem omega_axis (mq : ℕ → ℕ → ℝ) (x : Vec 2) (h1 : x 1 = 0) (h2 : mq 1 0 = 0) :
    Arith.exact.omegaSum 2 (Arith.exact.fwd 2 mq (toArr1 x)).2 (Arith.exact.invDiag 2 (Arith.exact.fwd 2 mq (toArr1 x)).1 (Arith.exact.fwd 2 mq (toArr1 x)).2) = x 0 * (x 0 * mq 0 0) := by
  have e0 : (⟨0, by norm_num⟩ : Fin 2) = 0 := rfl
  have e1 : (⟨1, by norm_num⟩ : Fin 2) = 1 := rfl
  simp [Arith.omegaSum, Arith.fwd, Arith.invDiag, forRange, forUp, Arith.fwdStep, set1, set2, toArr1, Arith.exact, Arith.mul, Arith.sub, Arith.add, h1, h2, e0, e1]

/-- A second cut with the array of the centre, once the first pivot is negative. -/
theorem late_noSoln (s : EllStable 2) (h1 : s.xc 1 = 0) (h2 : s.mq 1 0 = 0) (h3 : s.mq 0 0 < 0) (h4 : s.xc 0 ≠ 0) (h5 : 0 < s.kappa) :
    (Arith.exact.stableCoreLate id s (s.xc, .scalar 0) (Arith.exact.calcSingleOrParallel s.helper)).2 = .ok .noSoln := by
  have ht : s.kappa * (s.xc 0 * (s.xc 0 * s.mq 0 0)) < 0 * 0 := by
    have := mul_self_pos.mpr h4
    have : s.kappa * (s.xc 0 * (s.xc 0 * s.mq 0 0)) = -(s.kappa * ((s.xc 0 * s.xc 0) * -s.mq 0 0)) := by ring
    rw [this, mul_zero, neg_lt_zero]
    exact mul_pos h5 (mul_pos ‹_› (by linarith))
  simp only [Arith.stableCoreLate, omega_axis s.mq s.xc h1 h2, Arith.exact_single]
  have : s.helper.calcSingleOrParallel (.scalar 0) (Arith.exact.mul s.kappa (s.xc 0 * (s.xc 0 * s.mq 0 0))) = .ok (.noSoln, none) := EllCalc.calcBiasCut_noSoln le_rfl ht
  rw [this]

/-- The first cut: `EllStable(1, [1/10, 0])`. -/
theorem late_first (s : EllStable 2) (h : Arith.exact.stableInit (.scalar 1) (![1 / 10, 0] : Vec 2) = .ok s) :
    (Arith.exact.stableCoreLate id s (s.xc, .scalar 0) (Arith.exact.calcSingleOrParallel s.helper)).2 = .ok .success
    ∧ (Arith.exact.stableCoreLate id s (s.xc, .scalar 0) (Arith.exact.calcSingleOrParallel s.helper)).1.mq 0 0 = -3 / 11
    ∧ (Arith.exact.stableCoreLate id s (s.xc, .scalar 0) (Arith.exact.calcSingleOrParallel s.helper)).1.mq 1 0 = 0
    ∧ (Arith.exact.stableCoreLate id s (s.xc, .scalar 0) (Arith.exact.calcSingleOrParallel s.helper)).1.xc = ![-7 / 30, 0]
    ∧ (Arith.exact.stableCoreLate id s (s.xc, .scalar 0) (Arith.exact.calcSingleOrParallel s.helper)).1.kappa = 4 / 3 := by
  rw [C95_exact.1, EllStable.init, EllCalc.init_two_le le_rfl] at h
  simp only [except_ok_bind, Except.ok.injEq] at h
  subst h
  have hs : Real.sqrt (1 / 100) = 1 / 10 := by rw [show (1 / 100 : ℝ) = (1 / 10) ^ 2 by norm_num]; exact Real.sqrt_sq (by norm_num)
  have e0 : (⟨0, by norm_num⟩ : Fin 2) = 0 := rfl
  have e1 : (⟨1, by norm_num⟩ : Fin 2) = 1 := rfl
  have ho := omega_axis (toArr2 (1 : Mat 2)) ![1 / 10, 0] (by simp) (by simp [toArr2])
  have hst : (EllCalc.std 2 true).calcSingleOrParallel (.scalar 0) (Arith.exact.mul 1 (1 / 100)) = .ok (.success, some ⟨1 / 30, 2 / 3, 4 / 3⟩) := by
    refine (EllCalc.calcBiasCut_success le_rfl (by norm_num [Arith.exact, Arith.mul]) (by norm_num [Arith.exact, Arith.mul])).trans ?_
    have : Arith.exact.mul 1 (1 / 100) = 1 / 100 := by norm_num [Arith.exact, Arith.mul]
    rw [this, hs]
    norm_num [EllCalcCore.biasParams]
  have hom : (![1 / 10, 0] : Vec 2) 0 * ((![1 / 10, 0] : Vec 2) 0 * toArr2 (1 : Mat 2) 0 0) = 1 / 100 := by norm_num [toArr2]
  rw [hom] at ho
  simp only [Arith.stableCoreLate, ho, Arith.exact_single, hst]
  have hz0 : Arith.exact.invDiag 2 (Arith.exact.fwd 2 (toArr2 (1 : Mat 2)) (toArr1 ![1 / 10, 0])).1 (Arith.exact.fwd 2 (toArr2 (1 : Mat 2)) (toArr1 ![1 / 10, 0])).2 = fun i => if i = 0 then 1 / 10 else 0 := by
    funext i
    rcases i with _ | _ | i <;> simp [Arith.fwd, Arith.invDiag, forRange, forUp, Arith.fwdStep, set1, set2, toArr1, toArr2, Arith.exact, Arith.mul, Arith.sub, e0, e1]
  have hf : ∀ i j, (Arith.exact.fwd 2 (toArr2 (1 : Mat 2)) (toArr1 ![1 / 10, 0])).1 i j = if i = j ∧ i < 2 then 1 else 0 := by
    intro i j
    rcases i with _ | _ | i <;> rcases j with _ | _ | j <;> simp [Arith.fwd, forRange, forUp, Arith.fwdStep, set2, toArr1, toArr2, Arith.exact, Arith.mul, Arith.sub, e0, e1]
  rw [hz0]
  generalize (Arith.exact.fwd 2 (toArr2 (1 : Mat 2)) (toArr1 ![1 / 10, 0])).1 = mq at hf ⊢
  have hb : ∀ i : Fin 2, Arith.exact.bwd 2 mq (fun i => if i = 0 then 1 / 10 else 0) i = if i = 0 then 1 / 10 else 0 := by
    intro i
    fin_cases i <;> simp [Arith.bwd, forDown, forRange, forUp, set1, hf, Arith.exact, Arith.mul, Arith.sub]
  have hx' : (fun i : Fin 2 => Arith.exact.sub ((![1 / 10, 0] : Vec 2) i) (Arith.exact.mul (Arith.exact.div (1 / 30) (1 / 100)) (Arith.exact.bwd 2 mq (fun i => if i = 0 then 1 / 10 else 0) i))) = ![-7 / 30, 0] := by
    funext i
    rw [hb]
    fin_cases i <;> norm_num [Arith.exact, Arith.sub, Arith.mul, Arith.div]
  have hr : (Arith.exact.rankOne 2 mq (fun i => if i = 0 then 1 / 10 else 0) (toArr1 (![-7 / 30, 0] : Vec 2)) (1 / 200)).failed = false
      ∧ (Arith.exact.rankOne 2 mq (fun i => if i = 0 then 1 / 10 else 0) (toArr1 (![-7 / 30, 0] : Vec 2)) (1 / 200)).mq 0 0 = -3 / 11
      ∧ (Arith.exact.rankOne 2 mq (fun i => if i = 0 then 1 / 10 else 0) (toArr1 (![-7 / 30, 0] : Vec 2)) (1 / 200)).mq 1 0 = 0 := by
    norm_num [Arith.rankOne, Arith.rankStep, Arith.rankInner, forRange, forUp, set1, set2, hf, Arith.exact, Arith.mul, Arith.sub, Arith.add, Arith.div, toArr1, e0, e1]
  have hmu : Arith.exact.div (1 / 100) (Arith.exact.div (2 / 3) (Arith.exact.sub 1 (2 / 3))) = 1 / 200 := by norm_num [Arith.exact, Arith.sub, Arith.div]
  have hs1 : Arith.exact.sub 1 (2 / 3) ≠ 0 := by norm_num [Arith.exact, Arith.sub]
  have hm0 : Arith.exact.div (2 / 3) (Arith.exact.sub 1 (2 / 3)) ≠ 0 := by norm_num [Arith.exact, Arith.sub, Arith.div]
  have hw : (1 / 100 : ℝ) ≠ 0 := by norm_num
  simp only [stableBack, hw, hs1, hm0, if_false, id, hx', hmu, hr.1, Bool.false_eq_true, Arith.stableFinish, hr.2.1, hr.2.2]
  norm_num [Arith.exact, Arith.mul]

/-- A heap with one array. -/
noncomputable def aliasHeap : St Unit := ⟨fun k => if k = 0 then some (.vec 2 ![1 / 10, 0]) else none, 1, ()⟩

/-- **C102.** Refuted: with the array of the centre as gradient, `EllStable` of the text reports `NoSoln` although a ball lies in the region of the start and in the half-spaces of all the cuts. The gradient is the one of
`‖x‖² / 2` at the centre, and it is the centre itself. -/
theorem C102_refuted (ext : ℕ → String → List Val → M Unit Val) : ∃ (s1 s2 s3 : St Unit) (x1 x2 : Vec 2),
    call (mach Arith.exact ext) 7 (.glob "EllStable") [.num 1, .ref 0] aliasHeap = .ok (.ref 1) s1
    ∧ call (mach Arith.exact ext) 7 (.meth (.ref 1) "xc") [] s1 = .ok (.ref 0) s1 ∧ s1.heap 0 = some (.vec 2 x1)
    ∧ call (mach Arith.exact ext) 7 (.meth (.ref 1) "update_bias_cut") [.tuple [.ref 0, .num 0]] s1 = .ok (statusVal .success) s2
    ∧ call (mach Arith.exact ext) 7 (.meth (.ref 1) "xc") [] s2 = .ok (.ref 0) s2 ∧ s2.heap 0 = some (.vec 2 x2)
    ∧ call (mach Arith.exact ext) 7 (.meth (.ref 1) "update_bias_cut") [.tuple [.ref 0, .num 0]] s2 = .ok (statusVal .noSoln) s3
    ∧ ∀ y ∈ ball (0 : Vec 2) (1 / 20), y ∈ ball x1 1 ∧ x1 ⬝ᵥ (y - x1) ≤ 0 ∧ x2 ⬝ᵥ (y - x2) ≤ 0 := by
  obtain ⟨e, he, -, -⟩ := stable_init_ball (R := 1) one_pos (![1 / 10, 0] : Vec 2) le_rfl
  rw [one_pow] at he
  have he' := (C95_exact.1 (.scalar 1) (![1 / 10, 0] : Vec 2)).trans he
  obtain ⟨s1, h1, h2, h3⟩ := stable_init literals_exact (ext := ext) (st := aliasHeap) 4 rfl (.num 1) (n := 2) (x := ![1 / 10, 0]) (lx := 0) rfl (by decide)
  rw [he'] at h1
  obtain ⟨lm, -, h4⟩ := h3 e he'
  obtain ⟨f1, f2, f3, f4, f5⟩ := late_first e he'
  obtain ⟨s2, h5, h6, -⟩ := C101_aliased literals_exact (ext := ext) h4 .bias (.scalar 0) (by simp) 0
  obtain ⟨s3, h7, -, -⟩ := C101_aliased literals_exact (ext := ext) h6 .bias (.scalar 0) (by simp) 0
  simp only [Arith.strategy] at h5 h7
  rw [f1] at h5
  refine ⟨s1, s2, s3, ![1 / 10, 0], ![-7 / 30, 0], h1, stable_xc h4 6, h2.same 0 (by decide) not_false, h5, stable_xc h6 6, by rw [h6.xc]; simp only [Arith.strategy, f4], ?_, fun y hy => ?_⟩
  · refine h7.trans ?_
    rw [late_noSoln _ (by rw [f4]; simp) f3 (by rw [f2]; norm_num) (by rw [f4]; norm_num) (by rw [f5]; norm_num)]
    rfl
  · have hy' : y 0 * y 0 + y 1 * y 1 ≤ (1 / 20) ^ 2 := by simpa [ball, dotProduct, Fin.sum_univ_two] using hy
    have h1 : y 0 ≤ 1 / 20 := by nlinarith [mul_self_nonneg (y 1)]
    have h2 : -(1 / 20) ≤ y 0 := by nlinarith [mul_self_nonneg (y 1)]
    refine ⟨?_, ?_, ?_⟩
    · simp [ball, dotProduct, Fin.sum_univ_two]
      nlinarith
    · simp [dotProduct, Fin.sum_univ_two]
      linarith
    · simp [dotProduct, Fin.sum_univ_two]
      linarith

/-- **C102.** The true part: with a gradient in any array but the one of the centre, `update_bias_cut` of the text keeps the points of the half-space in its region, and reports `NoSoln` only if there are none. -/
theorem C102_partial {ext : ℕ → String → List Val → M W Val} {st st' : St W} {l lm lx : ℕ} {s : EllStable n} (he : StableAt Arith.exact st l lm lx s) (hs : s.Sound) {g : Vec n} (hg0 : g ≠ 0) {β : ℝ} {lg : ℕ}
    (hg : st.heap lg = some (.vec n g)) (hlt : lg < st.next) (hne : lg ≠ lx) (fuel : ℕ) {status : CutStatus}
    (h : call (mach Arith.exact ext) (fuel + 7) (.meth (.ref l) "update_bias_cut") [.tuple [.ref lg, .num β]] st = .ok (statusVal status) st') :
    (status = .success → ∃ s' : EllStable n, StableAt Arith.exact st' l lm lx s' ∧ s'.Sound ∧ s.region ∩ halfSpace g β s.xc ⊆ s'.region) ∧ (status = .noSoln → s.region ∩ halfSpace g β s.xc = ∅) := by
  obtain ⟨s1, h1, h2, -⟩ := C101_call literals_exact (ext := ext) he .bias (cut := (g, .scalar β)) ⟨lg, _, rfl, hlt, hg, .scalar β⟩ (fun vb h => hne (by simpa using congrArg (fun v => match v with | .tuple (.ref k :: _) => k | _ => 0) h))
    (by simp) fuel
  have hx := C95_exact.2 s .bias (g, .scalar β)
  rw [hx] at h1 h2
  obtain ⟨e, hin, hreg⟩ := hs.inStep
  have hxc : e.xc = s.xc := hin.1.xc.symm
  rcases hr : s.update .bias (g, .scalar β) with ⟨s', f | c⟩ <;> rw [hr] at h1 h2
  · rw [show methodName .bias = "update_bias_cut" from rfl, h] at h1
    simp [outcome, exc_apply] at h1
  · rw [show methodName .bias = "update_bias_cut" from rfl, h] at h1
    simp only [outcome, pure_apply, Res.ok.injEq] at h1
    obtain ⟨h1, rfl⟩ := h1
    have hc : status = c := by cases status <;> cases c <;> simp [statusVal] at h1 <;> rfl
    subst hc
    obtain ⟨e', hin', hu⟩ := update_lockstep_ok hin .bias (cut := (g, .scalar β)) ⟨hg0, trivial⟩ hr
    refine ⟨?_, ?_⟩
    · rintro rfl
      refine ⟨s', h2, hin'.sound, ?_⟩
      rw [← hreg, ← hxc, ← hin'.region_eq, hin'.2.1.region_eq_hull]
      exact (C01_deep_cut_keeps_solutions e hin.2.1 g β e' hu).1
    · rintro rfl
      have := (C06_noSoln_sound e hin.2.1 (g, .scalar β) e').1 hu
      rwa [hreg, hxc] at this

/-- **C102.** `Ell` of the text has no such condition: whatever array the gradient is in, `NoSoln` is reported only if no point of the region is in the half-space. -/
theorem C102_ell {ext : ℕ → String → List Val → M W Val} {st st' : St W} {l lm lx : ℕ} {e : Ell n} (he : EllAt Arith.exact st l lm lx e) (hw : e.WF) {g : Vec n} {β : ℝ} {lg : ℕ}
    (hg : st.heap lg = some (.vec n g)) (hlt : lg < st.next) (fuel : ℕ)
    (h : call (mach Arith.exact ext) (fuel + 7) (.meth (.ref l) "update_bias_cut") [.tuple [.ref lg, .num β]] st = .ok (statusVal .noSoln) st') : e.region ∩ halfSpace g β e.xc = ∅ := by
  obtain ⟨s1, h1, -, -⟩ := C97_call literals_exact (ext := ext) he .bias (cut := (g, .scalar β)) ⟨lg, _, rfl, hlt, hg, .scalar β⟩ (by simp) fuel
  rw [C90_exact.2.1 e .bias (g, .scalar β), show methodName .bias = "update_bias_cut" from rfl, h] at h1
  rcases hr : e.update .bias (g, .scalar β) with ⟨e', f | c⟩ <;> rw [hr] at h1
  · simp [outcome, exc_apply] at h1
  · simp only [outcome, pure_apply, Res.ok.injEq] at h1
    have hc : c = .noSoln := by cases c <;> simp [statusVal] at h1; rfl
    rw [hc] at hr
    exact (C06_noSoln_sound e hw (g, .scalar β) e').1 hr

/-- The hypotheses of `C102_partial` and `C102_ell` on a heap with a centre and a gradient, after `EllStable(1, x)` and after `Ell(1, x)`: `x₀ + 2 ≤ 0` misses the unit disc. -/
example : ∃ (s1 s2 s1' s2' : St Unit) (lm lm' : ℕ) (s : EllStable 2), StableAt Arith.exact s1 2 lm 0 s ∧ s.Sound ∧ s1.heap 1 = some (.vec 2 ![1, 0]) ∧ 1 < s1.next
    ∧ call (mach Arith.exact fun _ _ _ => M.stuck) 7 (.meth (.ref 2) "update_bias_cut") [.tuple [.ref 1, .num 2]] s1 = .ok (statusVal .noSoln) s2
    ∧ EllAt Arith.exact s1' 2 lm' 0 unitDisc ∧ unitDisc.WF ∧ s1'.heap 1 = some (.vec 2 ![1, 0]) ∧ 1 < s1'.next
    ∧ call (mach Arith.exact fun _ _ _ => M.stuck) 7 (.meth (.ref 2) "update_bias_cut") [.tuple [.ref 1, .num 2]] s1' = .ok (statusVal .noSoln) s2' := by
  let st : St Unit := ⟨fun k => if k = 0 then some (.vec 2 0) else some (.vec 2 ![1, 0]), 2, ()⟩
  have he : Ell.init (.scalar 1) (0 : Vec 2) = .ok unitDisc := by unfold Ell.init; rw [EllCalc.init_two_le le_rfl]; rfl
  have hu : unitDisc.updateBiasCut (![1, 0], .scalar 2) = ({ unitDisc with tsq := unitDisc.kappa * unitDisc.omega ![1, 0] }, .ok .noSoln) :=
    Ell.updateCore_none e1_ne_zero unitDisc_omega_ne (by
      rw [unitDisc_tsq]
      exact EllCalc.calcBiasCut_noSoln (by norm_num) (by norm_num))
  obtain ⟨w1, w2, s, h1, h2⟩ := init_refines (.scalar 1) (by norm_num) (0 : Vec 2) he
  have hin : InStep s unitDisc := ⟨h2, w1, w2⟩
  have hs : (s.update .bias (![1, 0], .scalar 2)).2 = .ok .noSoln := by
    have hl := update_lockstep hin .bias (cut := (![1, 0], .scalar 2)) e1_ne_zero trivial
    rw [show unitDisc.update .bias (![1, 0], .scalar 2) = _ from hu] at hl
    rcases hl with ⟨-, h3⟩ | ⟨h3, -⟩
    · exact absurd ⟨w1.built, w1.posDef, w1.kappa_pos⟩ h3
    · exact h3
  obtain ⟨s1, -, h4, h5⟩ := stable_init (n := 2) (W := Unit) literals_exact (ext := fun _ _ _ => M.stuck) (st := st) 0 rfl (IsInit.num (1 : ℝ)) (lx := 0) (x := 0) rfl (by decide)
  obtain ⟨lm, -, h6⟩ := h5 s ((C95_exact.1 _ _).trans h1)
  obtain ⟨s1', -, h4', h5'⟩ := ell_init (n := 2) (W := Unit) literals_exact (ext := fun _ _ _ => M.stuck) (st := st) 0 rfl (IsInit.num (1 : ℝ)) (lx := 0) (x := 0) rfl (by decide)
  obtain ⟨lm', -, h6'⟩ := h5' unitDisc ((C90_exact.1 _ _).trans he)
  have hg : s1.heap 1 = some (.vec 2 ![1, 0]) := (h4.same 1 (by decide) not_false).trans rfl
  have hg' : s1'.heap 1 = some (.vec 2 ![1, 0]) := (h4'.same 1 (by decide) not_false).trans rfl
  have hlt : 1 < s1.next := (show 1 < st.next by decide).trans_le h4.next
  have hlt' : 1 < s1'.next := (show 1 < st.next by decide).trans_le h4'.next
  obtain ⟨s2, h7, -, -⟩ := C101_call literals_exact (ext := fun _ _ _ => M.stuck) h6 .bias (cut := (![1, 0], .scalar 2)) ⟨1, _, rfl, hlt, hg, .scalar _⟩ (by simp) (by simp) 0
  obtain ⟨s2', h7', -, -⟩ := C97_call literals_exact (ext := fun _ _ _ => M.stuck) h6' .bias (cut := (![1, 0], .scalar 2)) ⟨1, _, rfl, hlt', hg', .scalar _⟩ (by simp) 0
  rw [C95_exact.2, hs] at h7
  rw [C90_exact.2.1, show unitDisc.update .bias (![1, 0], .scalar 2) = _ from hu] at h7'
  exact ⟨s1, s2, s1', s2', lm, lm', s, h6, hin.sound, hg, hlt, h7, h6', w1, hg', hlt', h7'⟩

/-! ### Runs of the text -/

/-- A heap with an oracle of the user at 0, an array at 1 and options with `max_iters = N` and `tolerance = 0` at 2. -/
def stableHeap (N : ℕ) : St Unit :=
  ⟨fun k => if k = 0 then some .user else if k = 1 then some (.vec 2 ![0, 0]) else if k = 2 then some (.inst "Options" ((Env.empty.set "max_iters" (.int N)).set "tolerance" (.int 0))) else none, 3, ()⟩

theorem stableHeap_options (N : ℕ) : OptionsAt Arith.exact (stableHeap N) (.ref 2) ⟨N, 0⟩ := ⟨2, _, rfl, rfl, .inl rfl, .inl ⟨_, rfl, by simp [Val.toReal]⟩⟩

theorem disc_sub : ball (![1 / 2, 0] : Vec 2) (1 / 4) ⊆ ball ![0, 0] 1 := by
  intro x hx
  simp [ball, dotProduct, Fin.sum_univ_two] at hx ⊢
  nlinarith [sq_nonneg (x 1), sq_nonneg (x 0 - 1)]

theorem disc_volume : MeasureTheory.volume (ball (![1 / 2, 0] : Vec 2) (1 / 4)) ≠ 0 := by
  obtain ⟨e2, he2⟩ := (C60_init_rejects (.scalar ((1 / 4) ^ 2)) (![1 / 2, 0] : Vec 2)).mpr le_rfl
  obtain ⟨w2, hreg2, -⟩ := init_ball (by norm_num) he2
  rw [← hreg2]; exact WF.volume_ne_zero w2

/-- The hypotheses of `C101_feas_finds`, and what follows: with the text of the files, `cutting_plane_feas(omega, EllStable(1, x), options)` finds the disc of radius 1/4 around (1/2, 0). -/
example : ∃ (N : ℕ) (s1 s2 : St Unit) (k : ℕ) (y : Vec 2), call (mach Arith.exact (discExt ![1 / 2, 0] (1 / 4))) 3 (.glob "EllStable") [.num (1 ^ 2), .ref 1] (stableHeap N) = .ok (.ref 3) s1
    ∧ call (mach Arith.exact (discExt ![1 / 2, 0] (1 / 4))) 8 (.glob "cutting_plane_feas") [.ref 0, .ref 3, .ref 2] s1 = .ok (.tuple [.ref 1, .int k]) s2
    ∧ s2.heap 1 = some (.vec 2 y) ∧ y ∈ ball (![1 / 2, 0] : Vec 2) (1 / 4) := by
  obtain ⟨N, hN⟩ := exists_nat_gt (2 * (((2 : ℕ) : ℝ) + 1) * Real.log ((MeasureTheory.volume (ball (![0, 0] : Vec 2) 1)).toReal / (MeasureTheory.volume (ball (![1 / 2, 0] : Vec 2) (1 / 4))).toReal))
  obtain ⟨s1, s2, k, y, h1, h2, h3, h4, -⟩ := C101_feas_finds (n := 2) (fuel := 0) (ext := discExt ![1 / 2, 0] (1 / 4)) (vo := .ref 0) (vopt := .ref 2) (own := fun _ => (· = 0)) (Q := UserAt 0)
    le_rfl (ballOracle_regular (![1 / 2, 0] : Vec 2) (r := 1 / 4) (by norm_num)).proper user_feas (st := stableHeap N) (o := ()) trivial ⟨Nat.succ_pos 2, rfl, rfl⟩ (stableHeap_options N)
    (by rintro k ⟨⟩; exact Nat.lt_succ_self 2) (lx := 1) (x := ![0, 0]) rfl (show 1 < 3 by decide) (by decide) (R := 1) one_pos disc_sub disc_volume le_rfl hN
  exact ⟨N, s1, s2, k, y, h1, h2, h3, h4⟩

/-- The hypotheses of `C101_call`, `C101_accessors`, `C101_history`, `C101_aliased`, `C101_feas`, `C101_optim`, `C101_optim_q`, `C101_feas_same`, `C101_feas_sound` and `C101_optim_bound` after `EllStable(1, x)` and after `Ell(1, x)`. -/
example : ∃ (N : ℕ) (s1 s1' : St Unit) (lm lm' : ℕ) (s : EllStable 2) (e : Ell 2), StableReady Arith.exact (fun _ => (· = 0)) (UserAt 0) 3 lm 1 (.ref 2) ⟨N, 0⟩ s1 () s
    ∧ Ready Arith.exact (fun _ => (· = 0)) (UserAt 0) 3 lm' 1 (.ref 2) ⟨N, 0⟩ s1' () e ∧ InStep s e ∧ s.Sound ∧ ball (![1 / 2, 0] : Vec 2) (1 / 4) ⊆ s.region
    ∧ IsCut s1 ((![0, 0] : Vec 2), .scalar (1 / 4)) (.tuple [.ref 1, .num (1 / 4)])
    ∧ FeasOracle Arith.exact (discExt ![1 / 2, 0] (1 / 4)) 7 (.ref 0) (fun _ => (· = 0)) (ballOracle ![1 / 2, 0] (1 / 4)) (UserAt 0) False
    ∧ SeparatingOracle (fun _ => True) (ball ![1 / 2, 0] (1 / 4)) (ballOracle (![1 / 2, 0] : Vec 2) (1 / 4)) ∧ (∀ o x o' cut, ballOracle (![1 / 2, 0] : Vec 2) (1 / 4) o x = (o', .ok (some cut)) → UsableCut cut)
    ∧ OptimOracle Arith.exact (discExt ![1 / 2, 0] (1 / 4)) 7 (.ref 0) (fun _ => (· = 0)) edgeOracle (fun g v => v = .num (OrderDual.ofDual g)) (UserAt 0) False
    ∧ OptimQOracle (G := ℝᵒᵈ) Arith.exact (discExt ![1 / 2, 0] (1 / 4)) 7 (.ref 0) (fun _ => (· = 0)) (fun _ => (· = 0)) (fun o (x : Vec 2) _ _ => (o, .ok ⟨(x, .scalar 0), x, none, false⟩)) (fun g v => v = .num (OrderDual.ofDual g)) (UserAt 0) False
    ∧ stableBound s (ball (![1 / 2, 0] : Vec 2) (1 / 4)) < N := by
  have hd : ∀ g : ℝᵒᵈ, OrderDual.toDual ((Val.num (OrderDual.ofDual g)).toReal.getD 0) = g := fun g => rfl
  have hQ : FeasOracle Arith.exact (discExt ![1 / 2, 0] (1 / 4)) 7 (.ref 0) (fun _ => (· = 0)) (ballOracle ![1 / 2, 0] (1 / 4)) (UserAt 0) := user_feas
  have hω := ballOracle_regular (![1 / 2, 0] : Vec 2) (r := 1 / 4) (by norm_num)
  obtain ⟨e, he⟩ := (C60_init_rejects (.scalar (1 ^ 2)) (![0, 0] : Vec 2)).2 le_rfl
  obtain ⟨w, hreg, -⟩ := init_ball one_pos he
  obtain ⟨w1, w2, s, h1, h2⟩ := init_refines (.scalar (1 ^ 2)) (by positivity) (![0, 0] : Vec 2) he
  have hin : InStep s e := ⟨h2, w1, w2⟩
  obtain ⟨N, hN⟩ := exists_nat_gt (stableBound s (ball (![1 / 2, 0] : Vec 2) (1 / 4)))
  obtain ⟨s1, lm, -, h3⟩ := stableReady_init (fuel := 0) (ext := discExt ![1 / 2, 0] (1 / 4)) literals_exact rfl hQ.toOracleAt (st := stableHeap N) (o := ()) ⟨Nat.succ_pos 2, rfl, rfl⟩ (stableHeap_options N)
    (by rintro k ⟨⟩; exact Nat.lt_succ_self 2) (.num (1 ^ 2)) (lx := 1) rfl (show 1 < 3 by decide) (by decide) ((C95_exact.1 _ _).trans h1)
  obtain ⟨s1', lm', -, h4⟩ := ready_init (fuel := 0) (ext := discExt ![1 / 2, 0] (1 / 4)) literals_exact rfl hQ.toOracleAt (st := stableHeap N) (o := ()) ⟨Nat.succ_pos 2, rfl, rfl⟩ (stableHeap_options N)
    (by rintro k ⟨⟩; exact Nat.lt_succ_self 2) (.num (1 ^ 2)) (lx := 1) rfl (show 1 < 3 by decide) (by decide) (show Arith.exact.ellInit _ _ = .ok e from he)
  have hx : s.xc = ![0, 0] := by
    have := h2.xc
    rw [EllStable.init, EllCalc.init_two_le le_rfl] at h1
    simp only [except_ok_bind, Except.ok.injEq] at h1
    rw [← h1]
  refine ⟨N, s1, s1', lm, lm', s, e, h3, h4, hin, hin.sound, by rw [← hin.region_eq, hreg]; exact disc_sub, ⟨1, _, rfl, h3.ell.ltx, by rw [h3.ell.xc, hx], .scalar _⟩, user_feas, hω.toSeparatingOracle,
    fun o x o' cut ha => ⟨(hω.proper.shape o x o' cut trivial ha).2, (hω.cut o x o' cut trivial ha).1.pair⟩, user_optim hd fun _ => rfl, user_optimQ hd (fun _ => rfl) ?_, hN⟩
  intro o x g b o1 a h
  simp only [Prod.mk.injEq, Except.ok.injEq] at h
  rw [← h.2]
  exact nofun

/-- The hypotheses of `C101_lmi`, `C101_lmi_old` and `C101_lmi0`; the first run finds a point for `[[y₀ - 1/4, -y₁], [-y₁, 1]] ≻ 0` in the unit disc. -/
example : ∃ (s0 s1 s2 s0' s1' s0'' s1'' : St Unit) (k : ℕ) (y : Vec 2), call (mach Arith.exact fun _ _ _ => M.exc "TypeError") 3 (.glob "LMIOracle") [.list [.ref 0, .ref 1], .ref 2] lmiHeap = .ok (.ref 5) s0
    ∧ call (mach Arith.exact fun _ _ _ => M.exc "TypeError") 3 (.glob "EllStable") [.num (1 ^ 2), .ref 3] s0 = .ok (.ref s0.next) s1
    ∧ call (mach Arith.exact fun _ _ _ => M.exc "TypeError") 8 (.glob "cutting_plane_feas") [.ref 5, .ref s0.next, .ref 4] s1 = .ok (.tuple [.ref 3, .int k]) s2
    ∧ s2.heap 3 = some (.vec 2 y) ∧ QuadPos (lmiMat lmiHeapF lmiHeapB y)
    ∧ Finds (lmiMat lmiHeapF lmiHeapB) ![0, 0] 1 ⟨2000, 1 / 10 ^ 20⟩ 3 (call (mach Arith.exact fun _ _ _ => M.exc "TypeError") 8 (.glob "cutting_plane_feas") [.ref 5, .ref s0'.next, .ref 4] s1')
    ∧ Finds (lmi0Mat lmiHeapF) ![0, 0] 1 ⟨2000, 1 / 10 ^ 20⟩ 3 (call (mach Arith.exact fun _ _ _ => M.exc "TypeError") 8 (.glob "cutting_plane_feas") [.ref 5, .ref s0''.next, .ref 4] s1'') := by
  obtain ⟨s0, s1, h1, h2, h3⟩ := C101_lmi (ext := fun _ _ _ => M.exc "TypeError") (fuel := 0) le_rfl lmiHeap_symm.1 lmiHeap_symm.2 lmiHeap_at lmiHeap_options (by rintro k ⟨⟩; decide) (lx := 3) (x := ![0, 0]) rfl (by decide)
    one_pos
  obtain ⟨s0', s1', -, -, h7⟩ := C101_lmi_old (ext := fun _ _ _ => M.exc "TypeError") (fuel := 0) le_rfl lmiHeap_symm.1 lmiHeap_symm.2 lmiHeap_at lmiHeap_options (by rintro k ⟨⟩; decide) (lx := 3) (x := ![0, 0]) rfl
    (by decide) one_pos
  obtain ⟨s0'', s1'', -, -, h8⟩ := C101_lmi0 (ext := fun _ _ _ => M.exc "TypeError") (fuel := 0) le_rfl lmiHeap_symm.1 (st := lmiHeap) (lf := fun k : Fin 2 => (k : ℕ)) ⟨lmiHeap_at.F, nofun, lmiHeap_at.ltF, nofun⟩ lmiHeap_options
    (by rintro k ⟨⟩; decide) (lx := 3) (x := ![0, 0]) rfl (by decide) one_pos
  obtain ⟨s2, k, y, h4, h5, h6, -⟩ := h3.finds ![1 / 2, 0] (by norm_num [ball, dotProduct, Fin.sum_univ_two]) (1 / 4) (9 / 4) (by norm_num) (by norm_num) (fun v => by
    rw [lmiHeap_quad]
    simp only [dotProduct, Fin.sum_univ_two]
    norm_num
    nlinarith [mul_self_nonneg (v 1)]) (fun y hy v => by
    simp [ball, dotProduct, Fin.sum_univ_two] at hy
    rw [lmiHeap_quad]
    simp only [dotProduct, Fin.sum_univ_two]
    have a1 : -1 ≤ y 0 := by nlinarith [mul_self_nonneg (y 1), mul_self_nonneg (y 0 + 1)]
    have a2 : y 1 * y 1 ≤ 1 := by nlinarith [mul_self_nonneg (y 0)]
    nlinarith [mul_self_nonneg (v 0 - y 1 * v 1), mul_self_nonneg (v 0), mul_self_nonneg (v 1), mul_nonneg (show 0 ≤ y 0 + 1 by linarith) (mul_self_nonneg (v 0)),
      mul_nonneg (show 0 ≤ 1 - y 1 * y 1 by linarith) (mul_self_nonneg (v 1))]) (by
    have := Real.log_le_sub_one_of_pos (x := 10) (by norm_num)
    norm_num
    linarith) (by norm_num)
  exact ⟨s0, s1, s2, s0', s1', s0'', s1'', k, y, h1, h2, h4, h5, h6, h7, h8⟩

end Ellalgo.Py
