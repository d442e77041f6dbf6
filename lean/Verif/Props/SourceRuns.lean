import Verif.Py.Refine.User
import Verif.Props.SourceEll
import Verif.Props.Convergence
import Verif.Props.Soundness
import Verif.Props.Accuracy

/-!
# Properties of the text of `cutting_plane.py`

The functions of the file, run by the evaluator of `Py/Semantics` on an `Ell` of the heap (whose methods are those of the text of `ell.py`) and an oracle that is asked to meet a contract
(`Py/Refine/Runs`, `Py/Refine/Adaptor`). For every oracle of the model there is an object of the user that meets it (`Py/Refine/User`).
-/

namespace Ellalgo.Py

open Matrix Spec CuttingPlane

variable {W O G : Type} {n : ℕ}

/-- What the caller finds after a run: the ellipsoid at `l`, the oracle, and of what was there before nothing else has changed. -/
structure After (A : Arith) (own : St W → ℕ → Prop) (Q : St W → O → Prop) (l lm lx : ℕ) (st st' : St W) (o : O) (e : Ell n) : Prop where
  ell : EllAt A st' l lm lx e
  oracle : Q st' o
  same : ∀ k < st.next, ¬ (k = l ∨ k = lm ∨ k = lx) → ¬ own st k → st'.heap k = st.heap k

/-- What the caller has before a run: an ellipsoid, an oracle and options, none of which shares anything with the oracle. -/
structure Ready (A : Arith) (own : St W → ℕ → Prop) (Q : St W → O → Prop) (l lm lx : ℕ) (vopt : Val) (opts : Options ℝ) (st : St W) (o : O) (e : Ell n) : Prop where
  ell : EllAt A st l lm lx e
  oracle : Q st o
  options : OptionsAt A st vopt opts
  apart : ∀ k, k = l ∨ k = lm ∨ k = lx → ¬ own st k
  optlt : ∀ k, vopt = .ref k → k < st.next

section

variable {A : Arith} {own : St W → ℕ → Prop} {Q : St W → O → Prop} {l lm lx : ℕ} {vo vopt : Val} {opts : Options ℝ} {ext : ℕ → String → List Val → M W Val} {fuel : ℕ}

theorem Ready.running {old : ℕ → Prop} {wr : St W → ℕ → Prop} {st : St W} {o : O} {e : Ell n} (h : Ready A own Q l lm lx vopt opts st o e) :
    Running (n := n) A old own wr (fun k => k = l ∨ k = lm ∨ k = lx) (fun st e => EllAt A st l lm lx e) Q vopt opts st st o e none .none :=
  ⟨h.ell, h.oracle, h.options, h.apart, rfl, h.optlt, .refl _ _ _⟩

theorem after_of_running {old : ℕ → Prop} {wr : St W → ℕ → Prop} {st st' : St W} {o : O} {e : Ell n} {xb : Option (Vec n)} {vb : Val}
    (h : Running (n := n) A old own wr (fun k => k = l ∨ k = lm ∨ k = lx) (fun st e => EllAt A st l lm lx e) Q vopt opts st st' o e xb vb) : After A own Q l lm lx st st' o e :=
  ⟨h.space, h.oracle, fun k hk hc ho => (h.since.same k hk hc ho).1⟩

/-- **C98.** `cutting_plane_feas(omega, space, options)` of the text, on an `Ell` of the text: it raises or returns what the model says; the array that is returned is the centre of the ellipsoid itself. -/
theorem C98_feas (hA : Literals A) {omega : OracleFeas O (Vec n) (Cut n)} (hQ : FeasOracle A ext (fuel + 7) vo own omega Q) {st : St W} {o : O} {e : Ell n}
    (h : Ready A own Q l lm lx vopt opts st o e) :
    ∃ st', call (mach A ext) (fuel + 8) (.glob "cutting_plane_feas") [vo, .ref l, vopt] st
        = (match (feas omega (A.space n) ltReal o e opts).2.2 with
          | .error f => .exc (excOf f) st'
          | .ok (none, k) => .ok (.tuple [.none, .int k]) st'
          | .ok (some _, k) => .ok (.tuple [.ref lx, .int k]) st')
      ∧ After A own Q l lm lx st st' (feas omega (A.space n) ltReal o e opts).1 (feas omega (A.space n) ltReal o e opts).2.1
      ∧ ∀ x k, (feas omega (A.space n) ltReal o e opts).2.2 = .ok (some x, k) → st'.heap lx = some (.vec n x) := by
  have hsp := ell_space (n := n) hA ext fuel l lm lx (free := True)
  have hh := call_feas (fuel := fuel + 6) (Running.sim A ext (fuel + 7) (.ref l) vopt _ (fun _ => False) own own _ Q opts st hsp) (Running.feasSim A ext (fuel + 7) (.ref l) vo vopt _ _ own _ Q opts st hsp hQ)
    (Running.biasSim A ext (fuel + 7) (.ref l) vopt _ _ own _ Q opts st hsp hQ.toOracleAt) h.running
  rcases hr : feas omega (A.space n) ltReal o e opts with ⟨o', e', f | ⟨_ | x, k⟩⟩ <;> rw [hr] at hh <;> simp only [FeasOutcome] at hh
  · obtain ⟨st', h1, h2⟩ := hh
    exact ⟨st', h1, after_of_running h2, nofun⟩
  · obtain ⟨st', h1, h2⟩ := hh
    exact ⟨st', h1, after_of_running h2, by simp⟩
  · obtain ⟨v, st', h1, ⟨lp, rfl, -, hlp, hc⟩, h2⟩ := hh
    have hlx : lp = lx := by
      rcases hc with rfl | rfl | rfl
      · obtain ⟨_, _, hl, -, -⟩ := h2.space.obj
        rw [hl] at hlp; simp at hlp
      · rw [h2.space.mq] at hlp; simp at hlp
      · rfl
    subst hlx
    refine ⟨st', h1, after_of_running h2, fun y j hy => ?_⟩
    simp only [Except.ok.injEq, Prod.mk.injEq, Option.some.injEq] at hy
    rw [hlp, hy.1]

/-- The point that `cutting_plane_optim` and `cutting_plane_optim_q` return: `None`, or an array that was not there before or is one of `old`. -/
def Returned (old : ℕ → Prop) (st st' : St W) (xb : Option (Vec n)) (vb : Val) : Prop :=
  match xb with
  | none => vb = .none
  | some x => ∃ k, vb = .ref k ∧ (old k ∨ st.next ≤ k) ∧ st'.heap k = some (.vec n x)

theorem returned_of_kept {old : ℕ → Prop} {wr : St W → ℕ → Prop} {cells : ℕ → Prop} {st st' : St W} {xb : Option (Vec n)} {vb : Val} (h : Kept old wr cells st st' xb vb) : Returned old st st' xb vb := by
  cases xb with
  | none => exact h
  | some x =>
    obtain ⟨k, h1, h2, -, h3, -⟩ := h
    exact ⟨k, h1, h2, h3⟩

/-- **C98.** `cutting_plane_optim(omega, space, gamma, options)` of the text. -/
theorem C98_optim (hA : Literals A) {omega : OracleOptim O (Vec n) (Cut n) G} {isG : G → Val → Prop} (hQ : OptimOracle A ext (fuel + 7) vo own omega isG Q) {st : St W} {o : O} {e : Ell n}
    (h : Ready A own Q l lm lx vopt opts st o e) {g : G} {vg : Val} (hg : isG g vg) :
    ∃ st' vb vg', call (mach A ext) (fuel + 8) (.glob "cutting_plane_optim") [vo, .ref l, vg, vopt] st
        = (match (optim omega (A.space n) ltReal o e g opts).2.2 with
          | .error f => .exc (excOf f) st'
          | .ok (_, _, k) => .ok (.tuple [vb, vg', .int k]) st')
      ∧ After A own Q l lm lx st st' (optim omega (A.space n) ltReal o e g opts).1 (optim omega (A.space n) ltReal o e g opts).2.1
      ∧ ∀ xb g' k, (optim omega (A.space n) ltReal o e g opts).2.2 = .ok (xb, g', k) → isG g' vg' ∧ Returned (fun _ => False) st st' xb vb := by
  have hsp := ell_space (n := n) hA ext fuel l lm lx (free := True)
  have hh := call_optim (fuel := fuel + 6) (Running.sim A ext (fuel + 7) (.ref l) vopt _ (fun _ => False) own own _ Q opts st hsp) (Running.optimSim A ext (fuel + 7) (.ref l) vo vopt _ _ own _ Q opts st hsp hQ)
    (Running.copySim A ext (fuel + 7) (.ref l) vopt _ _ own _ Q opts st hsp hQ.toOracleAt)
    (Running.biasSim A ext (fuel + 7) (.ref l) vopt _ _ own _ Q opts st hsp hQ.toOracleAt) (Running.centralSim A ext (fuel + 7) (.ref l) vopt _ _ own _ Q opts st hsp hQ.toOracleAt) h.running hg
  rcases hr : optim omega (A.space n) ltReal o e g opts with ⟨o', e', f | ⟨xb, g', k⟩⟩ <;> rw [hr] at hh <;> simp only [OptimOutcome] at hh
  · obtain ⟨st', xb, vb, h1, h2⟩ := hh
    exact ⟨st', .none, .none, h1, after_of_running h2, nofun⟩
  · obtain ⟨st', vb, vg', h1, h2, h3⟩ := hh
    refine ⟨st', vb, vg', h1, after_of_running h3, fun xb' g'' k' heq => ?_⟩
    simp only [Except.ok.injEq, Prod.mk.injEq] at heq
    obtain ⟨rfl, rfl, -⟩ := heq
    exact ⟨h2, returned_of_kept h3.kept⟩

/-- **C98.** `cutting_plane_optim_q(omega, space_q, gamma, options)` of the text; the point that is returned is in a new array or in one of the oracle. -/
theorem C98_optim_q (hA : Literals A) {omega : OracleOptimQ O (Vec n) (Cut n) G} {isG : G → Val → Prop} {wr : St W → ℕ → Prop} (hQ : OptimQOracle A ext (fuel + 7) vo own wr omega isG Q) {st : St W} {o : O} {e : Ell n}
    (h : Ready A own Q l lm lx vopt opts st o e) {g : G} {vg : Val} (hg : isG g vg) :
    ∃ st' vb vg', call (mach A ext) (fuel + 8) (.glob "cutting_plane_optim_q") [vo, .ref l, vg, vopt] st
        = (match (optimQ omega (A.space n) ltReal o e g opts).2.2 with
          | .error f => .exc (excOf f) st'
          | .ok (_, _, k) => .ok (.tuple [vb, vg', .int k]) st')
      ∧ After A own Q l lm lx st st' (optimQ omega (A.space n) ltReal o e g opts).1 (optimQ omega (A.space n) ltReal o e g opts).2.1
      ∧ ∀ xb g' k, (optimQ omega (A.space n) ltReal o e g opts).2.2 = .ok (xb, g', k) → isG g' vg' ∧ Returned (own st) st st' xb vb := by
  have hsp := ell_space (n := n) hA ext fuel l lm lx (free := True)
  have hh := call_optimQ (fuel := fuel + 6) (Running.sim A ext (fuel + 7) (.ref l) vopt _ _ own wr _ Q opts st hsp) (Running.optimQSim A ext (fuel + 7) (.ref l) vo vopt _ own wr _ Q opts st hsp hQ)
    (Running.qSim A ext (fuel + 7) (.ref l) vo vopt _ _ own wr _ Q opts st hsp hQ) h.running hg
  rcases hr : optimQ omega (A.space n) ltReal o e g opts with ⟨o', e', f | ⟨xb, g', k⟩⟩ <;> rw [hr] at hh <;> simp only [OptimOutcome] at hh
  · obtain ⟨st', xb, vb, h1, h2⟩ := hh
    exact ⟨st', .none, .none, h1, after_of_running h2, nofun⟩
  · obtain ⟨st', vb, vg', h1, h2, h3⟩ := hh
    refine ⟨st', vb, vg', h1, after_of_running h3, fun xb' g'' k' heq => ?_⟩
    simp only [Except.ok.injEq, Prod.mk.injEq] at heq
    obtain ⟨rfl, rfl, -⟩ := heq
    exact ⟨h2, returned_of_kept h3.kept⟩

/-- **C98.** `bsearch(BSearchAdaptor(omega, space, options), (lower, upper), options2)` of the text: it raises or returns what the model says. Of what was there before, only the attribute `_xc` of the ellipsoid (and what belongs to
the oracle) changes: `x_best` is the centre of the model, the array with which the ellipsoid was made is left alone. -/
theorem C98_bsearch (hA : Literals A) {D : Type} {omega : OracleFeas O (Vec n) (Cut n)} {upd : O → G → O} {gv : G → Val} (hQ : ParamOracle A ext (fuel + 7) vo own omega upd gv Q)
    {opts2 : Options ℝ} {v2 : Val} {num : BSNum G D} {isL : G → Val → Prop} {isD : D → Val → Prop} {T : String} (hn : BSNumSim A ext (fuel + 9) num opts2.tolerance gv isL isD T)
    {st : St W} {o : O} {e : Ell n} (h : Ready A own Q l lm lx vopt opts st o e) (h2 : OptionsAt A st v2 opts2) (hlt2 : ∀ k, v2 = .ref k → k < st.next) {a b : G} {va : Val} (ha : isL a va) :
    ∃ s1 s2 lm' lx', call (mach A ext) (fuel + 1) (.glob "BSearchAdaptor") [vo, .ref l, vopt] st = .ok (.ref st.next) s1
      ∧ call (mach A ext) (fuel + 10) (.glob "bsearch") [.ref st.next, .tuple [va, gv b], v2] s1
        = (match (bsearch (assessBS omega upd (A.space n) ltReal opts) num (o, e) (a, b) opts2.maxIters).2.2 with
          | .error f => .exc (excOf f) s2
          | .ok (u, k) => .ok (.tuple [gv u, .int k]) s2)
      ∧ EllAt A s2 l lm' lx' (bsearch (assessBS omega upd (A.space n) ltReal opts) num (o, e) (a, b) opts2.maxIters).1.2
      ∧ Q s2 (bsearch (assessBS omega upd (A.space n) ltReal opts) num (o, e) (a, b) opts2.maxIters).1.1
      ∧ getAttr (mach A ext) (call (mach A ext) (fuel + 2)) (.ref st.next) "x_best" s2 = .ok (.ref lx') s2
      ∧ ∀ k < st.next, k ≠ l → ¬ own st k → s2.heap k = st.heap k := by
  obtain ⟨s1, h1, had, hf, hnext⟩ := adaptor_init A ext fuel st vo (.ref l) vopt
  have hf' : Frame (fun k => ¬ own st k) st s1 := ⟨hf.next, hf.world, fun k hk _ => hf.same k hk not_false⟩
  obtain ⟨hq1, hown1⟩ := hQ.stable h.oracle hf'
  have hsame : ∀ k < st.next, s1.heap k = st.heap k := fun k hk => hf.same k hk not_false
  have hap : ∀ k, k = l ∨ k = lm ∨ k = lx → ¬ own s1 k := fun k hk ho => h.apart k hk (hown1 k ho)
  have hA1 : Adapted A own Q st.next l vo vopt v2 opts opts2 s1 s1 (o, e) :=
    ⟨⟨lm, lx, h.ell.stable hf.next fun k hk _ => hsame k hk, hap⟩, hq1, h.options.mono fun k _ hk _ => hsame k (h.optlt k hk), h2.mono fun k _ hk _ => hsame k (hlt2 k hk), had,
      fun k hk => (h.optlt k hk).trans_le hf.next, fun k hk => (hlt2 k hk).trans_le hf.next, .refl _ _ _⟩
  have hh := call_bsearch (fuel := fuel + 8) hn (adaptor_sim hA hQ (st0 := s1) (la := st.next) (l := l) (vopt := vopt) (v2 := v2) (opts := opts) (opts2 := opts2)) hA1 ha (u := b)
  have fin : ∀ s2 (os : O × Ell n), Adapted A own Q st.next l vo vopt v2 opts opts2 s1 s2 os → ∃ lm' lx', EllAt A s2 l lm' lx' os.2 ∧ Q s2 os.1
      ∧ getAttr (mach A ext) (call (mach A ext) (fuel + 2)) (.ref st.next) "x_best" s2 = .ok (.ref lx') s2 ∧ ∀ k < st.next, k ≠ l → ¬ own st k → s2.heap k = st.heap k := by
    intro s2 os hA2
    obtain ⟨lm', lx', he, -⟩ := hA2.ell
    refine ⟨lm', lx', he, hA2.oracle, adaptor_x_best hA2.adaptor he fuel, fun k hk hkl ho => ?_⟩
    exact ((hA2.since.same k (hk.trans_le hf.next) hkl fun ho' => ho (hown1 k ho')).1).trans (hsame k hk)
  rcases hr : bsearch (assessBS omega upd (A.space n) ltReal opts) num (o, e) (a, b) opts2.maxIters with ⟨os, lo, f | ⟨u, k⟩⟩ <;> rw [hr] at hh <;> simp only [BSOutcome] at hh
  · obtain ⟨s2, h3, h4⟩ := hh
    obtain ⟨lm', lx', h5⟩ := fin s2 os h4
    exact ⟨s1, s2, lm', lx', h1, h3, h5⟩
  · obtain ⟨s2, h3, h4⟩ := hh
    obtain ⟨lm', lx', h5⟩ := fin s2 os h4
    exact ⟨s1, s2, lm', lx', h1, h3, h5⟩

end

/-- **C98.** Without the last argument the functions run with a new object of the class `Options`: at most 2000 iterations, tolerance `1e-20`. -/
theorem C98_defaults (A : Arith) (ext : ℕ → String → List Val → M W Val) (fuel : ℕ) (st : St W) (vo vs vg : Val) :
    (call (mach A ext) (fuel + 2) (.glob "cutting_plane_feas") [vo, vs] st
        = call (mach A ext) (fuel + 2) (.glob "cutting_plane_feas") [vo, vs, .ref st.next] (st.alloc (.inst "Options" Env.empty)))
      ∧ (call (mach A ext) (fuel + 2) (.glob "cutting_plane_optim") [vo, vs, vg] st
        = call (mach A ext) (fuel + 2) (.glob "cutting_plane_optim") [vo, vs, vg, .ref st.next] (st.alloc (.inst "Options" Env.empty)))
      ∧ (call (mach A ext) (fuel + 2) (.glob "cutting_plane_optim_q") [vo, vs, vg] st
        = call (mach A ext) (fuel + 2) (.glob "cutting_plane_optim_q") [vo, vs, vg, .ref st.next] (st.alloc (.inst "Options" Env.empty)))
      ∧ (call (mach A ext) (fuel + 2) (.glob "bsearch") [vo, vs] st
        = call (mach A ext) (fuel + 2) (.glob "bsearch") [vo, vs, .ref st.next] (st.alloc (.inst "Options" Env.empty)))
      ∧ OptionsAt A (st.alloc (.inst "Options" Env.empty)) (.ref st.next) ⟨2000, A.rnd (1 / 10 ^ 20)⟩ := by
  refine ⟨rfl, rfl, rfl, rfl, ⟨st.next, Env.empty, rfl, heap_alloc_self _, .inr ⟨rfl, rfl⟩, .inr ⟨rfl, ?_⟩⟩⟩
  simp [literal]

/-! ### In exact arithmetic -/

theorem exact_space : Arith.exact.space n = Ell.space n := by
  have h := fun (e : Ell n) (m : Method) (cut : Cut n) => C90_exact.2.1 e m cut
  simp only [Arith.space, Ell.space]
  congr 1 <;> funext e cut
  · exact h e .bias cut
  · exact h e .central cut
  · exact h e .q cut

theorem floatNum_exact (tol : ℝ) : floatNum Arith.exact tol = BSNum.exact ℝ tol := by
  simp only [floatNum, BSNum.exact, Arith.exact, ltReal, BSNum.mk.injEq]
  exact ⟨rfl, trivial, rfl⟩

/-- With integers: the same run as with the exact rationals of the model. -/
theorem intNum_exact (omega : OracleBS O ℤ) (tol : ℚ) (o : O) (a b : ℤ) (m : ℕ) : bsearch omega (intNum Arith.exact tol) o (a, b) m = bsearch omega (BSNum.int tol) o (a, b) m := by
  have hs : ∀ l u : ℤ, (intNum Arith.exact tol).small ((intNum Arith.exact tol).tau l u) = (BSNum.int tol).small ((BSNum.int tol).tau l u) := by
    intro l u
    simp only [intNum, BSNum.int, Arith.exact, ltReal]
    refine decide_eq_decide.mpr ?_
    rw [← Rat.cast_lt (K := ℝ)]
    push_cast
    rfl
  have hm : ∀ l u : ℤ, (intNum Arith.exact tol).mid l ((intNum Arith.exact tol).tau l u) = (BSNum.int tol).mid l ((BSNum.int tol).tau l u) := by
    intro l u
    have h : ((l : ℝ) + ((u - l : ℤ) : ℝ) / 2) = (((l : ℚ) + ((u : ℚ) - l) / 2 : ℚ) : ℝ) := by push_cast; ring
    simp only [intNum, BSNum.int, Arith.exact, Arith.add, h, Rat.floor_cast, Rat.ceil_cast]
    exact if_congr (by rw [Rat.cast_nonneg]) rfl rfl
  unfold bsearch
  suffices ∀ (k : ℕ) (o : O) (a b : ℤ), bsearchLoop omega (intNum Arith.exact tol) m k o a b = bsearchLoop omega (BSNum.int tol) m k o a b from this 0 o a b
  induction m with
  | zero => intro k o a b; rfl
  | succ m ih =>
    intro k o a b
    simp only [bsearchLoop, hs, hm, ih]

section

variable {own : St W → ℕ → Prop} {Q : St W → O → Prop} {vo vopt : Val} {opts : Options ℝ} {ext : ℕ → String → List Val → M W Val} {fuel : ℕ}

/-- After `Ell(val, x)` everything is ready for a run, if the oracle and the options were. -/
theorem ready_init {A : Arith} (hA : Literals A) (hn : A.rnd n = n) (hQ : OracleAt own Q) {st : St W} {o : O} (ho : Q st o) (hopt : OptionsAt A st vopt opts) (hlt : ∀ k, vopt = .ref k → k < st.next)
    {val : InitVal n} {v : Val} (hv : IsInit A st val v) {lx : ℕ} {x : Vec n} (hx : st.heap lx = some (.vec n x)) (hltx : lx < st.next) (hox : ¬ own st lx) {e : Ell n} (he : A.ellInit val x = .ok e) :
    ∃ s1 lm, call (mach A ext) (fuel + 3) (.glob "Ell") [v, .ref lx] st = .ok (.ref st.next) s1 ∧ Ready A own Q st.next lm lx vopt opts s1 o e := by
  obtain ⟨s1, h1, h2, h3⟩ := ell_init hA (ext := ext) fuel hn hv hx hltx
  rw [he] at h1
  obtain ⟨lm, hlm, h4⟩ := h3 e he
  obtain ⟨hq, hown⟩ := hQ.stable ho (st' := s1) ⟨h2.next, h2.world, fun k hk _ => h2.same k hk not_false⟩
  refine ⟨s1, lm, h1, h4, hq, hopt.mono fun k _ hk _ => h2.same k (hlt k hk) not_false, fun k hk hok => ?_, fun k hk => (hlt k hk).trans_le h2.next⟩
  have hk' := hQ.bound ho k (hown k hok)
  rcases hk with rfl | rfl | rfl
  · exact lt_irrefl _ hk'
  · exact lt_asymm hk' hlm
  · exact hox (hown k hok)

/-- **C98.** From the text alone: `space = Ell(R ** 2, x)` and `cutting_plane_feas(omega, space, options)`, for a set `F` between two balls of radius `r` and `R`, return a point of `F` within `2 n (n + 1) ln(R / r)` iterations. -/
theorem C98_feas_converges {omega : OracleFeas O (Vec n) (Cut n)} {I : O → Prop} {F : Set (Vec n)} (hn : 2 ≤ n) (hω : RegularOracle I F omega) (hQ : FeasOracle Arith.exact ext (fuel + 7) vo own omega Q)
    {st : St W} {o : O} (hI : I o) (ho : Q st o) (hopt : OptionsAt Arith.exact st vopt opts) (hlt : ∀ k, vopt = .ref k → k < st.next) {lx : ℕ} {x c : Vec n} (hx : st.heap lx = some (.vec n x)) (hltx : lx < st.next)
    (hox : ¬ own st lx) {R r : ℝ} (hR : 0 < R) (hr : 0 < r) (hF : F ⊆ ball x R) (hball : ball c r ⊆ F) (htol : opts.tolerance ≤ r ^ 2)
    (hmax : 2 * n * ((n : ℝ) + 1) * Real.log (R / r) < opts.maxIters) :
    ∃ s1 s2 k y, call (mach Arith.exact ext) (fuel + 3) (.glob "Ell") [.num (R ^ 2), .ref lx] st = .ok (.ref st.next) s1
      ∧ call (mach Arith.exact ext) (fuel + 8) (.glob "cutting_plane_feas") [vo, .ref st.next, vopt] s1 = .ok (.tuple [.ref lx, .int (k : ℕ)]) s2
      ∧ s2.heap lx = some (.vec n y) ∧ y ∈ F ∧ (k : ℝ) ≤ 2 * n * ((n : ℝ) + 1) * Real.log (R / r) := by
  obtain ⟨e, he⟩ := (C60_init_rejects (.scalar (R ^ 2)) x).2 hn
  obtain ⟨s1, lm, h1, h2⟩ := ready_init literals_exact rfl hQ.toOracleAt ho hopt hlt (ext := ext) (fuel := fuel) (.num (R ^ 2)) hx hltx hox (show Arith.exact.ellInit _ x = .ok e from he)
  obtain ⟨o', e', y, k, h3, h4, h5⟩ := C23_feas_converges hω o hI x c R r hR hr e he hF hball opts htol hmax
  obtain ⟨s2, h6, -, h7⟩ := C98_feas literals_exact hQ h2
  rw [exact_space, h3] at h6 h7
  exact ⟨s1, s2, k, y, h1, h6, h7 y k rfl, h4, h5⟩

/-- **C98.** If the run of the text returns an array, it holds a point of `F` (and it is the centre of the ellipsoid); if `F` is not empty and the run returns `None`, the iterations are used up, or `tsq` is below the tolerance, or the last cut had no effect. -/
theorem C98_feas_sound {omega : OracleFeas O (Vec n) (Cut n)} {I : O → Prop} {F : Set (Vec n)} (hω : SeparatingOracle I F omega) (hQ : FeasOracle Arith.exact ext (fuel + 7) vo own omega Q)
    {st s2 : St W} {o : O} {e : Ell n} {l lm lx : ℕ} (hI : I o) (h : Ready Arith.exact own Q l lm lx vopt opts st o e) (hw : e.WF) (hF : F ⊆ e.region) {v : Val} {k : ℕ}
    (hr : call (mach Arith.exact ext) (fuel + 8) (.glob "cutting_plane_feas") [vo, .ref l, vopt] st = .ok (.tuple [v, .int k]) s2) :
    (v = .ref lx ∧ ∃ y ∈ F, s2.heap lx = some (.vec n y)) ∨
      (v = .none ∧ (F.Nonempty → k = opts.maxIters ∨ ∃ e' : Ell n, EllAt Arith.exact s2 l lm lx e' ∧
        (e'.tsq < opts.tolerance ∨ ∃ (e1 : Ell n) (cut : Cut n), e1.updateBiasCut cut = (e', .ok .noEffect)))) := by
  obtain ⟨s2', h6, h7, h8⟩ := C98_feas literals_exact hQ h
  obtain ⟨-, -, h9, h10⟩ := C22_infeasibility_sound hω o hI e hw hF opts
  rw [exact_space] at h6 h7 h8
  rw [hr] at h6
  rcases hres : feas omega (Ell.space n) ltReal o e opts with ⟨o', e', f | ⟨_ | y, k'⟩⟩ <;> rw [hres] at h6 h7 h8 <;> simp at h6
  · obtain ⟨⟨rfl, rfl⟩, rfl⟩ := h6
    refine .inr ⟨rfl, fun hne => ?_⟩
    rcases h9 o' e' k hne hres with h | h | ⟨_, _, e1, cut, _, _, h⟩
    · exact .inl h
    · exact .inr ⟨e', h7.ell, .inl h⟩
    · exact .inr ⟨e', h7.ell, .inr ⟨e1, cut, h⟩⟩
  · obtain ⟨⟨rfl, rfl⟩, rfl⟩ := h6
    exact .inl ⟨rfl, y, h10 o' e' y k hres, h8 y k rfl⟩

/-- **C98.** `cutting_plane_optim` of the text on a convex problem: after enough iterations it returns a new array with a feasible point and its value, which is within `ε (M - f*)` of the optimum, unless it raises. -/
theorem C98_optim_accuracy {f c : Vec n → ℝ} {I : O → Prop} {omega : OracleOptim O (Vec n) (Cut n) ℝᵒᵈ} (hf : ConvexOn ℝ Set.univ f) (hc : ConvexOn ℝ Set.univ c) (hω : SubgradOracle I f c omega)
    (hQ : OptimOracle Arith.exact ext (fuel + 7) vo own omega (fun g v => v = .num (OrderDual.ofDual g)) Q) {st : St W} {o : O} {e : Ell n} {l lm lx : ℕ} (hI : I o)
    (h : Ready Arith.exact own Q l lm lx vopt opts st o e) (hw : e.WF) (g0 : ℝ) (htol : opts.tolerance ≤ 0)
    (hvol : MeasureTheory.volume {y | y ∈ e.region ∧ c y ≤ 0} ≠ 0) (xs : Vec n) (hxs : xs ∈ e.region) (hcs : c xs ≤ 0) (M : ℝ)
    (hM : ∀ y ∈ e.region, c y ≤ 0 → f y ≤ M) (hlt : f xs < M) (ε : ℝ) (hε : 0 < ε) (hε1 : ε ≤ 1) (hg0 : f xs + ε * (M - f xs) < g0)
    (hmax : 2 * ((n : ℝ) + 1) * (n * Real.log (1 / ε) +
      Real.log ((MeasureTheory.volume e.region).toReal / (MeasureTheory.volume {y | y ∈ e.region ∧ c y ≤ 0}).toReal)) < opts.maxIters) :
    (∃ s2 x lb, ∃ k : ℕ, call (mach Arith.exact ext) (fuel + 8) (.glob "cutting_plane_optim") [vo, .ref l, .num g0, vopt] st = .ok (.tuple [.ref lb, .num (f x), .int k]) s2
      ∧ st.next ≤ lb ∧ s2.heap lb = some (.vec n x) ∧ c x ≤ 0 ∧ f x ≤ f xs + ε * (M - f xs)) ∨
    (∃ s2 fault, call (mach Arith.exact ext) (fuel + 8) (.glob "cutting_plane_optim") [vo, .ref l, .num g0, vopt] st = .exc (excOf fault) s2) := by
  obtain ⟨s2, vb, vg, h1, h2, h3⟩ := C98_optim literals_exact hQ h (g := OrderDual.toDual g0) (vg := .num g0) rfl
  rw [exact_space] at h1 h2 h3
  rcases C77_convex_accuracy hf hc hω o hI e hw g0 opts htol hvol xs hxs hcs M hM hlt ε hε hε1 hg0 hmax with ⟨o', e', x, k, h4, h5, h6⟩ | ⟨o', e', fault, h4, -⟩
  · rw [h4] at h1 h3
    obtain ⟨rfl, lb, rfl, h7, h8⟩ := h3 _ _ _ rfl
    exact .inl ⟨s2, x, lb, k, h1, h7.resolve_left not_false, h8, h5, h6⟩
  · rw [h4] at h1
    exact .inr ⟨s2, fault, h1⟩

end

/-! ### A run of the text -/

/-- A heap with an oracle of the user at 0, an array at 1 and options at 2. -/
def exampleHeap : St Unit := ⟨fun k => if k = 0 then some .user else if k = 1 then some (.vec 2 ![0, 0]) else if k = 2 then some (.inst "Options" Env.empty) else none, 3, ()⟩

/-- The user's oracle for a disc. -/
noncomputable def discExt (c : Vec 2) (r : ℝ) : ℕ → String → List Val → M Unit Val :=
  userExt (G := ℝᵒᵈ) (fun g => .num (OrderDual.ofDual g)) (fun v => OrderDual.toDual (v.toReal.getD 0)) (ballOracle c r) (fun o _ => o) edgeOracle (fun o x _ _ => (o, .ok ⟨(x, .scalar 0), x, none, false⟩))

/-- The hypotheses of `C98_feas_converges`, and what follows: with the text of the files, `cutting_plane_feas(omega, Ell(1, x), Options())` finds the disc of radius 1/4 around (1/2, 0). -/
example : ∃ (s1 s2 : St Unit) (k : ℕ) (y : Vec 2), call (mach Arith.exact (discExt ![1 / 2, 0] (1 / 4))) 3 (.glob "Ell") [.num (1 ^ 2), .ref 1] exampleHeap = .ok (.ref 3) s1
    ∧ call (mach Arith.exact (discExt ![1 / 2, 0] (1 / 4))) 8 (.glob "cutting_plane_feas") [.ref 0, .ref 3, .ref 2] s1 = .ok (.tuple [.ref 1, .int k]) s2
    ∧ s2.heap 1 = some (.vec 2 y) ∧ y ∈ ball (![1 / 2, 0] : Vec 2) (1 / 4) := by
  obtain ⟨s1, s2, k, y, h1, h2, h3, h4, -⟩ := C98_feas_converges (n := 2) (fuel := 0) (ext := discExt ![1 / 2, 0] (1 / 4)) (vo := .ref 0) (vopt := .ref 2) (own := fun _ => (· = 0)) (Q := UserAt 0)
    (opts := ⟨2000, 1 / 10 ^ 20⟩) le_rfl (ballOracle_regular (![1 / 2, 0] : Vec 2) (r := 1 / 4) (by norm_num)) user_feas (st := exampleHeap) (o := ()) trivial ⟨by decide, rfl, rfl⟩
    ⟨2, Env.empty, rfl, rfl, .inr ⟨rfl, rfl⟩, .inr ⟨rfl, by simp [literal, Arith.exact]⟩⟩ (by rintro k ⟨⟩; decide) (lx := 1) (x := ![0, 0]) (c := ![1 / 2, 0]) rfl (by decide) (by decide) (R := 1) (r := 1 / 4)
    one_pos (by norm_num) (by
      intro x hx
      simp [ball, dotProduct, Fin.sum_univ_two] at hx ⊢
      nlinarith [sq_nonneg (x 1), sq_nonneg (x 0 - 1)]) subset_rfl (by norm_num) (by
      have := Real.log_le_sub_one_of_pos (x := 4) (by norm_num)
      norm_num
      linarith)
  exact ⟨s1, s2, k, y, h1, h2, h3, h4⟩

/-- The hypotheses of `C98_feas`, `C98_optim`, `C98_optim_q` and `C98_bsearch` (with floats and with integers) on that heap, after `Ell(1, x)`. -/
example : ∃ (s1 : St Unit) (lm : ℕ) (e : Ell 2),
    Ready Arith.exact (fun _ => (· = 0)) (UserAt 0) 3 lm 1 (.ref 2) ⟨2000, 1 / 10 ^ 20⟩ s1 () e ∧ e.WF ∧ OptionsAt Arith.exact s1 (.ref 2) ⟨2000, 1 / 10 ^ 20⟩
    ∧ FeasOracle Arith.exact (discExt ![1 / 2, 0] (1 / 4)) 7 (.ref 0) (fun _ => (· = 0)) (ballOracle ![1 / 2, 0] (1 / 4)) (UserAt 0)
    ∧ OptimOracle Arith.exact (discExt ![1 / 2, 0] (1 / 4)) 7 (.ref 0) (fun _ => (· = 0)) edgeOracle (fun g v => v = .num (OrderDual.ofDual g)) (UserAt 0)
    ∧ OptimQOracle (G := ℝᵒᵈ) Arith.exact (discExt ![1 / 2, 0] (1 / 4)) 7 (.ref 0) (fun _ => (· = 0)) (fun _ => (· = 0)) (fun o (x : Vec 2) _ _ => (o, .ok ⟨(x, .scalar 0), x, none, false⟩)) (fun g v => v = .num (OrderDual.ofDual g)) (UserAt 0)
    ∧ ParamOracle (G := ℝᵒᵈ) Arith.exact (discExt ![1 / 2, 0] (1 / 4)) 7 (.ref 0) (fun _ => (· = 0)) (ballOracle ![1 / 2, 0] (1 / 4)) (fun o _ => o) (fun g => .num (OrderDual.ofDual g)) (UserAt 0)
    ∧ BSNumSim Arith.exact (discExt ![1 / 2, 0] (1 / 4)) 9 (floatNum Arith.exact (1 / 10 ^ 20)) (1 / 10 ^ 20) Val.num (fun x v => v.toFloat Arith.exact = some x) (fun x v => v = .num x) "float"
    ∧ BSNumSim Arith.exact (discExt ![1 / 2, 0] (1 / 4)) 9 (intNum Arith.exact (1 / 10 ^ 20)) (1 / 10 ^ 20) Val.int (fun x v => v = .int x) (fun x v => v = .num x) "int" := by
  obtain ⟨e, he⟩ := (C60_init_rejects (.scalar (1 ^ 2)) (![0, 0] : Vec 2)).2 le_rfl
  obtain ⟨hw, -, -⟩ := init_ball one_pos he
  have hd : ∀ g : ℝᵒᵈ, OrderDual.toDual ((Val.num (OrderDual.ofDual g)).toReal.getD 0) = g := fun g => rfl
  have hQ : FeasOracle Arith.exact (discExt ![1 / 2, 0] (1 / 4)) 7 (.ref 0) (fun _ => (· = 0)) (ballOracle ![1 / 2, 0] (1 / 4)) (UserAt 0) := user_feas
  obtain ⟨s1, lm, -, h2⟩ := ready_init (fuel := 0) (ext := discExt ![1 / 2, 0] (1 / 4)) literals_exact rfl hQ.toOracleAt (st := exampleHeap) (o := ()) ⟨by decide, rfl, rfl⟩ (vopt := .ref 2) (opts := ⟨2000, 1 / 10 ^ 20⟩)
    ⟨2, Env.empty, rfl, rfl, .inr ⟨rfl, rfl⟩, .inr ⟨rfl, by simp [literal, Arith.exact]⟩⟩ (by rintro k ⟨⟩; decide) (.num (1 ^ 2)) (lx := 1) rfl (by decide) (by decide) (show Arith.exact.ellInit _ _ = .ok e from he)
  refine ⟨s1, lm, e, h2, hw, h2.options, hQ, user_optim hd (fun _ => rfl), user_optimQ hd (fun _ => rfl) ?_, user_param hd, floatNum_sim _ _ 8 ?_ _, intNum_sim _ _ 8 _⟩
  · intro o x g b o1 a h
    simp only [Prod.mk.injEq, Except.ok.injEq] at h
    rw [← h.2]
    exact nofun
  · simp [Arith.exact]

end Ellalgo.Py
