import Verif.Py.Refine.ProfitQ
import Verif.Py.Refine.ProfitRb
import Verif.Props.SourceStable
import Verif.Props.ProfitLoop

/-!
# Properties of the text of `profit_oracle.py`

The constructors of the three oracles, then `Ell` or `EllStable`, then `cutting_plane_optim` or `cutting_plane_optim_q`, all of them run from the text of their files.
-/

namespace Ellalgo.Py

open Matrix Spec Spec.ProfitProblem CuttingPlane

variable {W O S G : Type} {n : ℕ}

/-- What a run of one of the two optimisation loops gives, if the model gives `m` and leaves the centre at `c`: the exception of the model, or the triple of the model. The best point is in an array other than that of the centre. -/
def Outcome (isG : G → Val → Prop) (lx : ℕ) (c : Vec n) (m : Except Fault (Option (Vec n) × G × ℕ)) (r : Res W Val) : Prop :=
  ∃ st', st'.heap lx = some (.vec n c) ∧
    match m with
    | .error f => r = .exc (excOf f) st'
    | .ok (none, g, k) => ∃ vg, r = .ok (.tuple [.none, vg, .int k]) st' ∧ isG g vg
    | .ok (some x, g, k) => ∃ lb vg, r = .ok (.tuple [.ref lb, vg, .int k]) st' ∧ isG g vg ∧ lb ≠ lx ∧ st'.heap lb = some (.vec n x)

/-- What the caller has: the elasticities, the input prices and the first point in three arrays, and options; the array of the first point is not one of the other two. -/
structure Desk (A : Arith) (st : St W) (la lp lx : ℕ) (a v x : Vec 2) (vopt : Val) (opts : Options ℝ) : Prop where
  elasticities : st.heap la = some (.vec 2 a)
  prices : st.heap lp = some (.vec 2 v)
  point : st.heap lx = some (.vec 2 x)
  lta : la < st.next
  ltp : lp < st.next
  ltx : lx < st.next
  nea : lx ≠ la
  nep : lx ≠ lp
  options : OptionsAt A st vopt opts
  optlt : ∀ k, vopt = .ref k → k < st.next

section

variable {A : Arith} {own wr : St W → ℕ → Prop} {Q : St W → O → Prop} {lx : ℕ} {vo vopt : Val} {opts : Options ℝ} {ext : ℕ → String → List Val → M W Val} {fuel : ℕ}

theorem outcome_of {isG : G → Val → Prop} {old : ℕ → Prop} {st st' : St W} {c : Vec n} {vb vg : Val} {r : Res W Val} (m : Except Fault (Option (Vec n) × G × ℕ))
    (h1 : r = (match m with | .error f => .exc (excOf f) st' | .ok (_, _, k) => .ok (.tuple [vb, vg, .int k]) st')) (hc : st'.heap lx = some (.vec n c))
    (h2 : ∀ xb g k, m = .ok (xb, g, k) → isG g vg ∧ Returned old st st' xb vb) (hx : ¬ old lx) (hlt : lx < st.next) : Outcome isG lx c m r := by
  refine ⟨st', hc, ?_⟩
  rcases m with f | ⟨_ | x, g, k⟩
  · exact h1
  · obtain ⟨h3, h4⟩ := h2 _ _ _ rfl
    rw [show vb = .none from h4] at h1
    exact ⟨vg, h1, h3⟩
  · obtain ⟨h3, lb, rfl, h4, h5⟩ := h2 _ _ _ rfl
    refine ⟨lb, vg, h1, h3, ?_, h5⟩
    rintro rfl
    rcases h4 with h4 | h4
    · exact hx h4
    · omega

/-- `Ell(val, x)` or `EllStable(val, x)`, then `cutting_plane_optim`. -/
theorem source_optim (hA : Literals A) (hn : A.rnd n = n) {omega : OracleOptim O (Vec n) (Cut n) G} {isG : G → Val → Prop} (hQ : ∀ {free}, OptimOracle A ext (fuel + 7) vo own omega isG Q free) {st : St W} {o : O}
    (ho : Q st o) (hopt : OptionsAt A st vopt opts) (hlt : ∀ k, vopt = .ref k → k < st.next) {val : InitVal n} {v : Val} (hv : IsInit A st val v) {x : Vec n} (hx : st.heap lx = some (.vec n x)) (hltx : lx < st.next)
    (hox : ¬ own st lx) {g : G} {vg : Val} (hg : isG g vg) :
    (∀ e, A.ellInit val x = .ok e → ∃ s1, call (mach A ext) (fuel + 3) (.glob "Ell") [v, .ref lx] st = .ok (.ref st.next) s1 ∧
      Outcome isG lx (optim omega (A.space n) ltReal o e g opts).2.1.xc (optim omega (A.space n) ltReal o e g opts).2.2
        (call (mach A ext) (fuel + 8) (.glob "cutting_plane_optim") [vo, .ref st.next, vg, vopt] s1)) ∧
    (∀ e, A.stableInit val x = .ok e → ∃ s1, call (mach A ext) (fuel + 3) (.glob "EllStable") [v, .ref lx] st = .ok (.ref st.next) s1 ∧
      Outcome isG lx (optim omega (A.stableSpace n) ltReal o e g opts).2.1.xc (optim omega (A.stableSpace n) ltReal o e g opts).2.2
        (call (mach A ext) (fuel + 8) (.glob "cutting_plane_optim") [vo, .ref st.next, vg, vopt] s1)) := by
  refine ⟨fun e he => ?_, fun e he => ?_⟩
  · obtain ⟨s1, lm, h1, h2⟩ := ready_init (ext := ext) (fuel := fuel) hA hn (hQ (free := True)).toOracleAt ho hopt hlt hv hx hltx hox he
    obtain ⟨s2, vb, vg', h3, h4, h5⟩ := C98_optim hA hQ h2 hg
    exact ⟨s1, h1, outcome_of _ h3 h4.ell.xc h5 not_false h2.ell.ltx⟩
  · obtain ⟨s1, lm, h1, h2⟩ := stableReady_init (ext := ext) (fuel := fuel) hA hn (hQ (free := False)).toOracleAt ho hopt hlt hv hx hltx hox he
    obtain ⟨s2, vb, vg', h3, h4, h5⟩ := C101_optim hA hQ h2 hg
    exact ⟨s1, h1, outcome_of _ h3 h4.ell.xc h5 not_false h2.ell.ltx⟩

/-- `Ell(val, x)` or `EllStable(val, x)`, then `cutting_plane_optim_q`. -/
theorem source_optim_q (hA : Literals A) (hn : A.rnd n = n) {omega : OracleOptimQ O (Vec n) (Cut n) G} {isG : G → Val → Prop} (hQ : ∀ {free}, OptimQOracle A ext (fuel + 7) vo own wr omega isG Q free) {st : St W} {o : O}
    (ho : Q st o) (hopt : OptionsAt A st vopt opts) (hlt : ∀ k, vopt = .ref k → k < st.next) {val : InitVal n} {v : Val} (hv : IsInit A st val v) {x : Vec n} (hx : st.heap lx = some (.vec n x)) (hltx : lx < st.next)
    (hox : ¬ own st lx) {g : G} {vg : Val} (hg : isG g vg) :
    (∀ e, A.ellInit val x = .ok e → ∃ s1, call (mach A ext) (fuel + 3) (.glob "Ell") [v, .ref lx] st = .ok (.ref st.next) s1 ∧
      Outcome isG lx (optimQ omega (A.space n) ltReal o e g opts).2.1.xc (optimQ omega (A.space n) ltReal o e g opts).2.2
        (call (mach A ext) (fuel + 8) (.glob "cutting_plane_optim_q") [vo, .ref st.next, vg, vopt] s1)) ∧
    (∀ e, A.stableInit val x = .ok e → ∃ s1, call (mach A ext) (fuel + 3) (.glob "EllStable") [v, .ref lx] st = .ok (.ref st.next) s1 ∧
      Outcome isG lx (optimQ omega (A.stableSpace n) ltReal o e g opts).2.1.xc (optimQ omega (A.stableSpace n) ltReal o e g opts).2.2
        (call (mach A ext) (fuel + 8) (.glob "cutting_plane_optim_q") [vo, .ref st.next, vg, vopt] s1)) := by
  refine ⟨fun e he => ?_, fun e he => ?_⟩
  · obtain ⟨s1, lm, h1, h2⟩ := ready_init (ext := ext) (fuel := fuel) hA hn (hQ (free := True)).toOracleAt ho hopt hlt hv hx hltx hox he
    obtain ⟨s2, vb, vg', h3, h4, h5⟩ := C98_optim_q hA hQ h2 hg
    exact ⟨s1, h1, outcome_of _ h3 h4.ell.xc h5 (h2.apart _ (.inr (.inr rfl))) h2.ell.ltx⟩
  · obtain ⟨s1, lm, h1, h2⟩ := stableReady_init (ext := ext) (fuel := fuel) hA hn (hQ (free := False)).toOracleAt ho hopt hlt hv hx hltx hox he
    obtain ⟨s2, vb, vg', h3, h4, h5⟩ := C101_optim_q hA hQ h2 hg
    exact ⟨s1, h1, outcome_of _ h3 h4.ell.xc h5 (h2.apart _ (.inr (.inr rfl))) h2.ell.ltx⟩

end

section

variable {A : Arith} {st : St W} {la lp lx : ℕ} {a v x : Vec 2} {vopt : Val} {opts : Options ℝ} {ext : ℕ → String → List Val → M W Val} {fuel : ℕ}

theorem IsInit.mono {st s0 : St W} {val : InitVal n} {v : Val} (h : IsInit A st val v) (hf : Frame (fun _ => False) st s0) : IsInit A s0 val v := by
  cases h with
  | num k => exact .num k
  | int k => exact .int k
  | list d => exact .list d
  | array l d h hlt => exact .array l d ((hf.same l hlt not_false).trans h) (hlt.trans_le hf.next)

/-- **C103.** `ProfitOracle((p, s, k), elasticities, price_out)`, `Ell(val, x)` or `EllStable(val, x)`, and `cutting_plane_optim`, run from the text, in any arithmetic with rounding: they give what the model of this arithmetic gives.
The constructor raises if the model does. -/
theorem C103_profit (hA : Literals A) (hn : A.rnd 2 = 2) (D : Desk A st la lp lx a v x vopt opts) (p s k : ℝ) {val : InitVal 2} {w : Val} (hv : IsInit A st val w) {g : ℝ} {vg : Val} (hg : IsTarget A g vg) :
    match A.profitInit p s k a v with
    | .error f => ∃ s0, call (mach A ext) (fuel + 3) (.glob "ProfitOracle") [.tuple [.num p, .num s, .num k], .ref la, .ref lp] st = .exc (excOf f) s0
    | .ok o => ∃ s0, call (mach A ext) (fuel + 3) (.glob "ProfitOracle") [.tuple [.num p, .num s, .num k], .ref la, .ref lp] st = .ok (.ref st.next) s0 ∧
      (∀ e, A.ellInit val x = .ok e → ∃ s1, call (mach A ext) (fuel + 3) (.glob "Ell") [w, .ref lx] s0 = .ok (.ref s0.next) s1 ∧
        Outcome (IsTarget A) lx (optim A.profitOracle (A.space 2) ltReal o e g opts).2.1.xc (optim A.profitOracle (A.space 2) ltReal o e g opts).2.2
          (call (mach A ext) (fuel + 8) (.glob "cutting_plane_optim") [.ref st.next, .ref s0.next, vg, vopt] s1)) ∧
      (∀ e, A.stableInit val x = .ok e → ∃ s1, call (mach A ext) (fuel + 3) (.glob "EllStable") [w, .ref lx] s0 = .ok (.ref s0.next) s1 ∧
        Outcome (IsTarget A) lx (optim A.profitOracle (A.stableSpace 2) ltReal o e g opts).2.1.xc (optim A.profitOracle (A.stableSpace 2) ltReal o e g opts).2.2
          (call (mach A ext) (fuel + 8) (.glob "cutting_plane_optim") [.ref st.next, .ref s0.next, vg, vopt] s1)) := by
  have hi := profit_init (A := A) (ext := ext) (fuel := fuel + 1) D.elasticities D.prices D.lta D.ltp p s k
  rcases hr : A.profitInit p s k a v with f | o <;> rw [hr] at hi
  · obtain ⟨s0, h, -⟩ := hi
    exact ⟨s0, h⟩
  · obtain ⟨s0, h1, h2, hf, hown⟩ := hi
    refine ⟨s0, h1, source_optim (fuel := fuel) hA (by exact_mod_cast hn) (profit_oracle (fuel := fuel + 3) hA st.next) h2 (D.options.mono fun k _ hk _ => hf.same k (D.optlt k hk) not_false)
      (fun k hk => (D.optlt k hk).trans_le hf.next) (hv.mono hf) ((hf.same lx D.ltx not_false).trans D.point) (D.ltx.trans_le hf.next) (fun h => ?_) hg⟩
    rcases hown _ h with h | h | h
    · exact D.ltx.ne h
    · exact D.nea h
    · exact D.nep h

/-- **C103.** The same for `ProfitRbOracle((p, s, k), elasticities, price_out, (e1, e2, e3, e4, e5))`. -/
theorem C103_robust (hA : Literals A) (hn : A.rnd 2 = 2) (D : Desk A st la lp lx a v x vopt opts) (p s k e1 e2 e3 e4 e5 : ℝ) {val : InitVal 2} {w : Val} (hv : IsInit A st val w) {g : ℝ} {vg : Val} (hg : IsTarget A g vg) :
    match A.profitRbInit p s k a v e1 e2 e3 e4 e5 with
    | .error f => ∃ s0, call (mach A ext) (fuel + 3) (.glob "ProfitRbOracle") [.tuple [.num p, .num s, .num k], .ref la, .ref lp, .tuple [.num e1, .num e2, .num e3, .num e4, .num e5]] st = .exc (excOf f) s0
    | .ok o => ∃ s0, call (mach A ext) (fuel + 3) (.glob "ProfitRbOracle") [.tuple [.num p, .num s, .num k], .ref la, .ref lp, .tuple [.num e1, .num e2, .num e3, .num e4, .num e5]] st = .ok (.ref st.next) s0 ∧
      (∀ e, A.ellInit val x = .ok e → ∃ s1, call (mach A ext) (fuel + 3) (.glob "Ell") [w, .ref lx] s0 = .ok (.ref s0.next) s1 ∧
        Outcome (IsTarget A) lx (optim A.profitRbOracle (A.space 2) ltReal o e g opts).2.1.xc (optim A.profitRbOracle (A.space 2) ltReal o e g opts).2.2
          (call (mach A ext) (fuel + 8) (.glob "cutting_plane_optim") [.ref st.next, .ref s0.next, vg, vopt] s1)) ∧
      (∀ e, A.stableInit val x = .ok e → ∃ s1, call (mach A ext) (fuel + 3) (.glob "EllStable") [w, .ref lx] s0 = .ok (.ref s0.next) s1 ∧
        Outcome (IsTarget A) lx (optim A.profitRbOracle (A.stableSpace 2) ltReal o e g opts).2.1.xc (optim A.profitRbOracle (A.stableSpace 2) ltReal o e g opts).2.2
          (call (mach A ext) (fuel + 8) (.glob "cutting_plane_optim") [.ref st.next, .ref s0.next, vg, vopt] s1)) := by
  have hi := rb_init (A := A) (ext := ext) (fuel := fuel) D.elasticities D.prices D.lta D.ltp p s k e1 e2 e3 e4 e5
  rcases hr : A.profitRbInit p s k a v e1 e2 e3 e4 e5 with f | o <;> rw [hr] at hi
  · obtain ⟨s0, h, -⟩ := hi
    exact ⟨s0, h⟩
  · obtain ⟨s0, lo, h1, h2, hf, hown⟩ := hi
    refine ⟨s0, h1, source_optim (fuel := fuel) hA (by exact_mod_cast hn) (rb_oracle (fuel := fuel + 2) hA st.next lo la) h2 (D.options.mono fun k _ hk _ => hf.same k (D.optlt k hk) not_false)
      (fun k hk => (D.optlt k hk).trans_le hf.next) (hv.mono hf) ((hf.same lx D.ltx not_false).trans D.point) (D.ltx.trans_le hf.next) (fun h => ?_) hg⟩
    rcases hown _ h with h | h
    · exact D.nea h
    · exact absurd D.ltx (not_lt.mpr h)

/-- **C103.** `ProfitQOracle((p, s, k), elasticities, price_out)` and `cutting_plane_optim_q`, in any arithmetic in which rounding keeps the sign. -/
theorem C103_discrete (hA : Literals A) (hS : KeepsSign A) (hn : A.rnd 2 = 2) (D : Desk A st la lp lx a v x vopt opts) (p s k : ℝ) {val : InitVal 2} {w : Val} (hv : IsInit A st val w) {g : ℝ} {vg : Val} (hg : IsTarget A g vg) :
    match A.profitQInit p s k a v with
    | .error f => ∃ s0, call (mach A ext) (fuel + 3) (.glob "ProfitQOracle") [.tuple [.num p, .num s, .num k], .ref la, .ref lp] st = .exc (excOf f) s0
    | .ok o => ∃ s0, call (mach A ext) (fuel + 3) (.glob "ProfitQOracle") [.tuple [.num p, .num s, .num k], .ref la, .ref lp] st = .ok (.ref st.next) s0 ∧
      (∀ e, A.ellInit val x = .ok e → ∃ s1, call (mach A ext) (fuel + 3) (.glob "Ell") [w, .ref lx] s0 = .ok (.ref s0.next) s1 ∧
        Outcome (IsTarget A) lx (optimQ A.profitQOracle (A.space 2) ltReal o e g opts).2.1.xc (optimQ A.profitQOracle (A.space 2) ltReal o e g opts).2.2
          (call (mach A ext) (fuel + 8) (.glob "cutting_plane_optim_q") [.ref st.next, .ref s0.next, vg, vopt] s1)) ∧
      (∀ e, A.stableInit val x = .ok e → ∃ s1, call (mach A ext) (fuel + 3) (.glob "EllStable") [w, .ref lx] s0 = .ok (.ref s0.next) s1 ∧
        Outcome (IsTarget A) lx (optimQ A.profitQOracle (A.stableSpace 2) ltReal o e g opts).2.1.xc (optimQ A.profitQOracle (A.stableSpace 2) ltReal o e g opts).2.2
          (call (mach A ext) (fuel + 8) (.glob "cutting_plane_optim_q") [.ref st.next, .ref s0.next, vg, vopt] s1)) := by
  have hi := q_init (A := A) (ext := ext) (fuel := fuel) hA D.elasticities D.prices D.lta D.ltp p s k
  rcases hr : A.profitQInit p s k a v with f | o <;> rw [hr] at hi
  · obtain ⟨s0, h, -⟩ := hi
    exact ⟨s0, h⟩
  · obtain ⟨s0, lo, h1, h2, hf, hown⟩ := hi
    refine ⟨s0, h1, source_optim_q (fuel := fuel) hA (by exact_mod_cast hn) (q_oracle (fuel := fuel + 2) hA hS st.next lo) h2 (D.options.mono fun k _ hk _ => hf.same k (D.optlt k hk) not_false)
      (fun k hk => (D.optlt k hk).trans_le hf.next) (hv.mono hf) ((hf.same lx D.ltx not_false).trans D.point) (D.ltx.trans_le hf.next) (fun h => ?_) hg⟩
    rcases hown _ h with h | h | h
    · exact D.nea h
    · exact D.nep h
    · exact absurd D.ltx (not_lt.mpr h)

end

/-! ### In exact arithmetic -/

section

variable {P : ProfitProblem} {st : St W} {la lp lx : ℕ} {x : Vec 2} {vopt : Val} {opts : Options ℝ} {ext : ℕ → String → List Val → M W Val} {fuel : ℕ}

theorem profitOracle_exact : Arith.exact.profitOracle = ProfitOracle.asOracle := by
  funext o x γ
  simp only [Arith.profitOracle, ProfitOracle.asOracle, Arith.exact_profitOptim]
  rfl

theorem profitRbOracle_exact : Arith.exact.profitRbOracle = ProfitRbOracle.asOracle := by
  funext o x γ
  simp only [Arith.profitRbOracle, ProfitRbOracle.asOracle, Arith.exact_profitRbOptim]
  rfl

theorem profitQOracle_exact : Arith.exact.profitQOracle = ProfitQOracle.asOracle := by
  funext o x γ r
  simp only [Arith.profitQOracle, ProfitQOracle.asOracle, Arith.exact_profitQOptim]
  rfl

theorem keepsSign_exact : KeepsSign Arith.exact := fun _ h => h

/-- A run that ends: by returning a triple with a best point (or `None`), a value and a number of iterations that satisfy `good`, or by an exception that satisfies `bad` together with the last centre. -/
def Ends (lx : ℕ) (good : Option (Vec 2) → ℝ → ℕ → Prop) (bad : String → Vec 2 → Prop) (r : Res W Val) : Prop :=
  (∃ s2 vg γ k, r = .ok (.tuple [.none, vg, .int (k : ℕ)]) s2 ∧ vg.toReal = some γ ∧ good none γ k) ∨
  (∃ s2 lb y vg γ k, r = .ok (.tuple [.ref lb, vg, .int (k : ℕ)]) s2 ∧ vg.toReal = some γ ∧ lb ≠ lx ∧ s2.heap lb = some (.vec 2 y) ∧ good (some y) γ k) ∨
  (∃ s2 f c, r = .exc f s2 ∧ s2.heap lx = some (.vec 2 c) ∧ bad f c)

theorem isTarget_exact {g : ℝ} {v : Val} : IsTarget Arith.exact g v ↔ v.toReal = some g := by
  cases v <;> exact Iff.rfl

theorem ends_of {good : Option (Vec 2) → ℝ → ℕ → Prop} {bad : String → Vec 2 → Prop} {c : Vec 2} {m : Except Fault (Option (Vec 2) × ℝ × ℕ)} {r : Res W Val} (h : Outcome (IsTarget Arith.exact) lx c m r)
    (h1 : ∀ xb γ k, m = .ok (xb, γ, k) → good xb γ k) (h2 : ∀ f, m = .error f → bad (excOf f) c) : Ends lx good bad r := by
  obtain ⟨s2, hc, h⟩ := h
  rcases m with f | ⟨_ | y, γ, k⟩
  · exact .inr (.inr ⟨s2, _, c, h, hc, h2 f rfl⟩)
  · obtain ⟨vg, h3, h4⟩ := h
    exact .inl ⟨s2, vg, γ, k, h3, isTarget_exact.mp h4, h1 _ _ _ rfl⟩
  · obtain ⟨lb, vg, h3, h4, h5, h6⟩ := h
    exact .inr (.inl ⟨s2, lb, y, vg, γ, k, h3, isTarget_exact.mp h4, h5, h6, h1 _ _ _ rfl⟩)

/-- `ProfitOracle` over any search space: what is returned is `(None, γ0)`, or a design that respects the limit together with its profit, which is at least `γ0`. -/
theorem profit_loop_value (hP : P.Proper) (o : ProfitOracle) (ho : ProfitOracle.init P.price P.scale P.limit P.alpha P.cost = .ok o) (sp : SearchSpace S (Vec 2) (Cut 2) ℝ) (lt : ℝ → ℝ → Bool) (s : S) (γ0 : ℝ) (hγ0 : 0 ≤ γ0)
    (opts : Options ℝ) (o' : ProfitOracle) (s' : S) (xb : Option (Vec 2)) (γ : ℝ) (k : ℕ) (h : optim ProfitOracle.asOracle sp lt o s γ0 opts = (o', s', .ok (xb, γ, k))) :
    (xb = none ∧ γ = γ0) ∨ ∃ x, xb = some x ∧ quant x 0 ≤ P.limit ∧ γ = P.profit (quant x) ∧ γ0 ≤ γ := by
  obtain ⟨o2, h2, hg⟩ := ProfitOracle.init_good hP
  rw [ho] at h2
  cases h2
  rcases optim_best_spec_level (I := ProfitOracle.Good P) (J := fun γ => γ0 ≤ γ) (P := fun x γ => x ∈ P.Level γ ∧ γ = P.profit (quant x) ∧ γ0 ≤ γ) (fun _ _ _ ho => ProfitOracle.asOracle_good ho _ _)
    (fun o x γ o' cut γ1 ho hγ h => by
      obtain ⟨a, b, c⟩ := ProfitOracle.asOracle_value hP ho (hγ0.trans hγ) h
      exact ⟨hγ.trans a, b, c, hγ.trans a⟩) hg le_rfl h with h | ⟨x, hx, hl, hp, hle⟩
  · exact .inl h
  · exact .inr ⟨x, hx, hl.1, hp, hle⟩

/-- **C103.** In exact arithmetic, `ProfitOracle` of a proper problem, `Ell(R**2, x)` with the designs of level `γ0` in the ball, and `cutting_plane_optim`, run from the text:
* if it returns, then `(None, γ0, k)`, or a design that respects the limit, its profit, which is at least `γ0`, and `k`; if `k` is below the iteration limit and the tolerance is positive, then no design that respects the limit has a profit
above `γ + (1 - exp(-√tolerance)) · revenue`, or every design with at least the profit `γ` uses more than `exp(-√tolerance)` times the limit of the first input;
* if it raises, then a `ValueError`, and no design reaches `γ0`, or the centre (still in the array of `x`) is a global optimum. -/
theorem C103_profit_exact (hP : P.Proper) (D : Desk Arith.exact st la lp lx P.alpha P.cost x vopt opts) {R : ℝ} (hR : 0 < R) {γ0 : ℝ} {vg : Val} (hγ0 : 0 ≤ γ0) (hg : vg.toReal = some γ0) (hF : P.Level γ0 ⊆ ball x R) :
    ∃ s0 s1, call (mach Arith.exact ext) (fuel + 3) (.glob "ProfitOracle") [.tuple [.num P.price, .num P.scale, .num P.limit], .ref la, .ref lp] st = .ok (.ref st.next) s0 ∧
      call (mach Arith.exact ext) (fuel + 3) (.glob "Ell") [.num (R ^ 2), .ref lx] s0 = .ok (.ref s0.next) s1 ∧
      Ends lx (fun xb γ k => ((xb = none ∧ γ = γ0) ∨ ∃ y, xb = some y ∧ quant y 0 ≤ P.limit ∧ γ = P.profit (quant y) ∧ γ0 ≤ γ) ∧
          (k < opts.maxIters → 0 < opts.tolerance →
            (∀ y, quant y 0 ≤ P.limit → P.profit (quant y) ≤ γ + (1 - Real.exp (-Real.sqrt opts.tolerance)) * P.revenue (quant y)) ∨
            (∀ y ∈ P.Level γ, Real.exp (-Real.sqrt opts.tolerance) * P.limit < quant y 0)))
        (fun f c => f = "ValueError" ∧ (P.Level γ0 = ∅ ∨ (c ∈ P.Level γ0 ∧ ∀ y, P.profit (quant y) ≤ P.profit (quant c))))
        (call (mach Arith.exact ext) (fuel + 8) (.glob "cutting_plane_optim") [.ref st.next, .ref s0.next, vg, vopt] s1) := by
  obtain ⟨o, ho, -⟩ := ProfitOracle.init_good hP
  obtain ⟨e, he⟩ := (C60_init_rejects (.scalar (R ^ 2)) x).2 le_rfl
  obtain ⟨hw, hreg, -⟩ := init_ball hR he
  have h := C103_profit (ext := ext) (fuel := fuel) literals_exact rfl D P.price P.scale P.limit (.num (R ^ 2)) (isTarget_exact.mpr hg)
  rw [show Arith.exact.profitInit P.price P.scale P.limit P.alpha P.cost = .ok o from ho] at h
  obtain ⟨s0, h0, h1, -⟩ := h
  obtain ⟨s1, h2, h3⟩ := h1 e he
  rw [exact_space, profitOracle_exact] at h3
  refine ⟨s0, s1, h0, h2, ends_of h3 (fun xb γ k hm => ?_) fun f hm => ?_⟩
  · exact C64_profit_loop hP o ho [] e hw γ0 hγ0 (by rw [hreg]; exact hF) opts _ _ xb γ k (Prod.ext rfl (Prod.ext rfl hm))
  · obtain ⟨rfl, h4⟩ := C65_profit_loop_raises hP o ho [] e hw γ0 hγ0 opts _ _ f (Prod.ext rfl (Prod.ext rfl hm))
    exact ⟨rfl, h4⟩

/-- **C103.** The same with `EllStable(R**2, x)`: what is returned. -/
theorem C103_profit_stable_exact (hP : P.Proper) (D : Desk Arith.exact st la lp lx P.alpha P.cost x vopt opts) {R : ℝ} (hR : 0 < R) {γ0 : ℝ} {vg : Val} (hγ0 : 0 ≤ γ0) (hg : vg.toReal = some γ0) :
    ∃ s0 s1, call (mach Arith.exact ext) (fuel + 3) (.glob "ProfitOracle") [.tuple [.num P.price, .num P.scale, .num P.limit], .ref la, .ref lp] st = .ok (.ref st.next) s0 ∧
      call (mach Arith.exact ext) (fuel + 3) (.glob "EllStable") [.num (R ^ 2), .ref lx] s0 = .ok (.ref s0.next) s1 ∧
      Ends lx (fun xb γ _ => (xb = none ∧ γ = γ0) ∨ ∃ y, xb = some y ∧ quant y 0 ≤ P.limit ∧ γ = P.profit (quant y) ∧ γ0 ≤ γ) (fun _ _ => True)
        (call (mach Arith.exact ext) (fuel + 8) (.glob "cutting_plane_optim") [.ref st.next, .ref s0.next, vg, vopt] s1) := by
  obtain ⟨o, ho, -⟩ := ProfitOracle.init_good hP
  obtain ⟨e, he, -⟩ := stable_init_ball hR x le_rfl
  have h := C103_profit (ext := ext) (fuel := fuel) literals_exact rfl D P.price P.scale P.limit (.num (R ^ 2)) (isTarget_exact.mpr hg)
  rw [show Arith.exact.profitInit P.price P.scale P.limit P.alpha P.cost = .ok o from ho] at h
  obtain ⟨s0, h0, -, h1⟩ := h
  obtain ⟨s1, h2, h3⟩ := h1 e he
  rw [profitOracle_exact] at h3
  exact ⟨s0, s1, h0, h2, ends_of h3 (fun xb γ k hm => profit_loop_value hP o ho _ _ e γ0 hγ0 opts _ _ xb γ k (Prod.ext rfl (Prod.ext rfl hm))) fun _ _ => trivial⟩

/-- **C103.** `ProfitRbOracle` with `Ell` (`cl = "Ell"`) or `EllStable` (`cl = "EllStable"`), in exact arithmetic, from the text: what `cutting_plane_optim` returns is `(None, γ0, k)`, or a design with a value that every scenario guarantees and
one attains, within the limit of every scenario. -/
theorem C103_robust_exact {e1 e2 e3 e4 e5 : ℝ} (hP : RobustProper P e1 e2 e3 e4 e5) (D : Desk Arith.exact st la lp lx P.alpha P.cost x vopt opts) {R : ℝ} {γ0 : ℝ} {vg : Val} (hR : 0 < R) (hγ0 : 0 ≤ γ0) (hg : vg.toReal = some γ0)
    {cl : String} (hc : cl = "Ell" ∨ cl = "EllStable") :
    ∃ s0 s1, call (mach Arith.exact ext) (fuel + 3) (.glob "ProfitRbOracle") [.tuple [.num P.price, .num P.scale, .num P.limit], .ref la, .ref lp, .tuple [.num e1, .num e2, .num e3, .num e4, .num e5]] st = .ok (.ref st.next) s0 ∧
      call (mach Arith.exact ext) (fuel + 3) (.glob cl) [.num (R ^ 2), .ref lx] s0 = .ok (.ref s0.next) s1 ∧
      Ends lx (fun xb γ _ => (xb = none ∧ γ = γ0) ∨ ∃ y, xb = some y ∧ γ0 ≤ γ ∧ (∀ S, P.Scenario e1 e2 e3 e4 e5 S → quant y 0 ≤ S.limit ∧ γ ≤ S.profit (quant y)) ∧
          ∃ S, P.Scenario e1 e2 e3 e4 e5 S ∧ γ = S.profit (quant y)) (fun _ _ => True)
        (call (mach Arith.exact ext) (fuel + 8) (.glob "cutting_plane_optim") [.ref st.next, .ref s0.next, vg, vopt] s1) := by
  obtain ⟨o, ho, -⟩ := ProfitRbOracle.init_good hP
  have h := C103_robust (ext := ext) (fuel := fuel) literals_exact rfl D P.price P.scale P.limit e1 e2 e3 e4 e5 (.num (R ^ 2)) (isTarget_exact.mpr hg)
  rw [Arith.exact_profitRbInit, ho] at h
  obtain ⟨s0, h0, h1, h1'⟩ := h
  rcases hc with rfl | rfl
  · obtain ⟨e, he⟩ := (C60_init_rejects (.scalar (R ^ 2)) x).2 le_rfl
    obtain ⟨s1, h2, h3⟩ := h1 e he
    rw [profitRbOracle_exact] at h3
    exact ⟨s0, s1, h0, h2, ends_of h3 (fun xb γ k hm => C66_robust_loop hP o ho [] _ _ e γ0 hγ0 opts _ _ xb γ k (Prod.ext rfl (Prod.ext rfl hm))) fun _ _ => trivial⟩
  · obtain ⟨e, he, -⟩ := stable_init_ball hR x le_rfl
    obtain ⟨s1, h2, h3⟩ := h1' e he
    rw [profitRbOracle_exact] at h3
    exact ⟨s0, s1, h0, h2, ends_of h3 (fun xb γ k hm => C66_robust_loop hP o ho [] _ _ e γ0 hγ0 opts _ _ xb γ k (Prod.ext rfl (Prod.ext rfl hm))) fun _ _ => trivial⟩

/-- **C103.** `ProfitQOracle` with `Ell` or `EllStable`, in exact arithmetic, from the text: what `cutting_plane_optim_q` returns is `(None, γ0, k)`, or an integer design within the limit together with its profit. -/
theorem C103_discrete_exact (hP : P.Proper) (D : Desk Arith.exact st la lp lx P.alpha P.cost x vopt opts) {R : ℝ} {γ0 : ℝ} {vg : Val} (hR : 0 < R) (hγ0 : 0 ≤ γ0) (hg : vg.toReal = some γ0)
    {cl : String} (hc : cl = "Ell" ∨ cl = "EllStable") :
    ∃ s0 s1, call (mach Arith.exact ext) (fuel + 3) (.glob "ProfitQOracle") [.tuple [.num P.price, .num P.scale, .num P.limit], .ref la, .ref lp] st = .ok (.ref st.next) s0 ∧
      call (mach Arith.exact ext) (fuel + 3) (.glob cl) [.num (R ^ 2), .ref lx] s0 = .ok (.ref s0.next) s1 ∧
      Ends lx (fun xb γ _ => (xb = none ∧ γ = γ0) ∨ ∃ y, xb = some y ∧ γ0 ≤ γ ∧ IntegerPoint y ∧ quant y 0 ≤ P.limit ∧ γ = P.profit (quant y)) (fun _ _ => True)
        (call (mach Arith.exact ext) (fuel + 8) (.glob "cutting_plane_optim_q") [.ref st.next, .ref s0.next, vg, vopt] s1) := by
  obtain ⟨o, ho⟩ : ∃ o, ProfitQOracle.init P.price P.scale P.limit P.alpha P.cost = .ok o := by
    obtain ⟨o, ho, -⟩ := ProfitOracle.init_good hP
    exact ⟨_, by rw [ProfitQOracle.init, ho]; rfl⟩
  have h := C103_discrete (ext := ext) (fuel := fuel) literals_exact keepsSign_exact rfl D P.price P.scale P.limit (.num (R ^ 2)) (isTarget_exact.mpr hg)
  rw [Arith.exact_profitQInit, ho] at h
  obtain ⟨s0, h0, h1, h1'⟩ := h
  rcases hc with rfl | rfl
  · obtain ⟨e, he⟩ := (C60_init_rejects (.scalar (R ^ 2)) x).2 le_rfl
    obtain ⟨s1, h2, h3⟩ := h1 e he
    rw [profitQOracle_exact] at h3
    exact ⟨s0, s1, h0, h2, ends_of h3 (fun xb γ k hm => C66_integer_loop hP o ho [] _ _ e γ0 hγ0 opts _ _ xb γ k (Prod.ext rfl (Prod.ext rfl hm))) fun _ _ => trivial⟩
  · obtain ⟨e, he, -⟩ := stable_init_ball hR x le_rfl
    obtain ⟨s1, h2, h3⟩ := h1' e he
    rw [profitQOracle_exact] at h3
    exact ⟨s0, s1, h0, h2, ends_of h3 (fun xb γ k hm => C66_integer_loop hP o ho [] _ _ e γ0 hγ0 opts _ _ xb γ k (Prod.ext rfl (Prod.ext rfl hm))) fun _ _ => trivial⟩

/-- **C103.** The constructors of the text, in exact arithmetic, raise a `ValueError` if the revenue factor or the limit is not positive. -/
theorem C103_rejects (D : Desk Arith.exact st la lp lx P.alpha P.cost x vopt opts) :
    (P.price * P.scale ≤ 0 ∨ P.limit ≤ 0 → ∀ cl, cl = "ProfitOracle" ∨ cl = "ProfitQOracle" →
      ∃ s0, call (mach Arith.exact ext) (fuel + 3) (.glob cl) [.tuple [.num P.price, .num P.scale, .num P.limit], .ref la, .ref lp] st = .exc "ValueError" s0) ∧
    ∀ e1 e2 e3 e4 e5, (P.price - e3) * P.scale ≤ 0 ∨ P.limit - e4 ≤ 0 →
      ∃ s0, call (mach Arith.exact ext) (fuel + 3) (.glob "ProfitRbOracle") [.tuple [.num P.price, .num P.scale, .num P.limit], .ref la, .ref lp, .tuple [.num e1, .num e2, .num e3, .num e4, .num e5]] st = .exc "ValueError" s0 := by
  have key : ∀ p s k (a v : Vec 2), p * s ≤ 0 ∨ k ≤ 0 → ProfitOracle.init p s k a v = .error .mathDomain := by
    intro p s k a v h
    unfold ProfitOracle.init plog
    by_cases h1 : p * s ≤ 0
    · rw [if_pos h1]; rfl
    · rw [if_neg h1, if_pos (h.resolve_left h1)]; rfl
  refine ⟨fun h cl hc => ?_, fun e1 e2 e3 e4 e5 h => ?_⟩
  · rcases hc with rfl | rfl
    · have hi := C103_profit (ext := ext) (fuel := fuel) literals_exact rfl D P.price P.scale P.limit (.num 1) (show IsTarget Arith.exact 0 (.num 0) from rfl)
      rw [show Arith.exact.profitInit P.price P.scale P.limit P.alpha P.cost = .error .mathDomain from key _ _ _ _ _ h] at hi
      exact hi
    · have hi := C103_discrete (ext := ext) (fuel := fuel) literals_exact keepsSign_exact rfl D P.price P.scale P.limit (.num 1) (show IsTarget Arith.exact 0 (.num 0) from rfl)
      rw [Arith.exact_profitQInit, ProfitQOracle.init, key _ _ _ _ _ h] at hi
      exact hi
  · have hi := C103_robust (ext := ext) (fuel := fuel) literals_exact rfl D P.price P.scale P.limit e1 e2 e3 e4 e5 (.num 1) (show IsTarget Arith.exact 0 (.num 0) from rfl)
    rw [Arith.exact_profitRbInit, ProfitRbOracle.init, key _ _ _ _ _ h] at hi
    exact hi

end

/-! ### Runs of the text -/

/-- Elasticities, input prices, a first point and options, in this order. -/
noncomputable def desk (a v x : Vec 2) (N : ℕ) (tol : ℝ) : St Unit :=
  ⟨fun k => if k = 0 then some (.vec 2 a) else if k = 1 then some (.vec 2 v) else if k = 2 then some (.vec 2 x)
    else if k = 3 then some (.inst "Options" ((Env.empty.set "max_iters" (.int N)).set "tolerance" (.num tol))) else none, 4, ()⟩

theorem desk_ok (a v x : Vec 2) (N : ℕ) (tol : ℝ) : Desk Arith.exact (desk a v x N tol) 0 1 2 a v x (.ref 3) ⟨N, tol⟩ where
  elasticities := rfl
  prices := rfl
  point := rfl
  lta := show 0 < 4 by decide
  ltp := show 1 < 4 by decide
  ltx := show 2 < 4 by decide
  nea := by decide
  nep := by decide
  options := ⟨3, _, rfl, rfl, .inl rfl, .inl ⟨_, rfl, rfl⟩⟩
  optlt := by rintro k ⟨⟩; exact (show 3 < 4 by decide)

/-- The hypotheses of `C103_profit`, `C103_robust`, `C103_discrete` and of the theorems in exact arithmetic, and a run: the text finds the design `(1, 1)` of `sampleProfit` with the profit 8, in a new array, and stops on the tolerance. -/
theorem C103_sample (ext : ℕ → String → List Val → M Unit Val) : ∃ s0 s1 s2 lb vg,
    call (mach Arith.exact ext) 3 (.glob "ProfitOracle") [.tuple [.num 5, .num 2, .num 10], .ref 0, .ref 1] (desk ![1 / 2, 1 / 2] ![1, 1] 0 2000 200) = .ok (.ref 4) s0 ∧
    call (mach Arith.exact ext) 3 (.glob "Ell") [.num 400, .ref 2] s0 = .ok (.ref s0.next) s1 ∧
    call (mach Arith.exact ext) 8 (.glob "cutting_plane_optim") [.ref 4, .ref s0.next, .num 8, .ref 3] s1 = .ok (.tuple [.ref lb, vg, .int 0]) s2 ∧
    vg.toReal = some 8 ∧ s2.heap lb = some (.vec 2 0) ∧ lb ≠ 2 := by
  obtain ⟨o, ho, o', e', hr⟩ := sampleProfit_run8
  have h := C103_profit (ext := ext) (fuel := 0) literals_exact rfl (desk_ok ![1 / 2, 1 / 2] ![1, 1] 0 2000 200) 5 2 10 (.num 400) (show IsTarget Arith.exact 8 (.num 8) from rfl)
  rw [show Arith.exact.profitInit 5 2 10 ![1 / 2, 1 / 2] ![1, 1] = .ok o from ho] at h
  obtain ⟨s0, h0, h1, -⟩ := h
  have he : Ell.init (.scalar 400) (0 : Vec 2) = .ok disc400 := by unfold Ell.init; rw [EllCalc.init_two_le le_rfl]; rfl
  obtain ⟨s1, h2, h3⟩ := h1 disc400 he
  rw [exact_space, profitOracle_exact, hr] at h3
  obtain ⟨s2, -, lb, vg, h4, h5, h6, h7⟩ := h3
  exact ⟨s0, s1, s2, lb, vg, h0, h2, h4, isTarget_exact.mp h5, h7, h6⟩

/-- A run that raises: started at the optimum of `exactProfit`, the text raises a `ValueError`. -/
theorem C103_raises (ext : ℕ → String → List Val → M Unit Val) : ∃ s0 s1 s2,
    call (mach Arith.exact ext) 3 (.glob "ProfitOracle") [.tuple [.num 2, .num 2, .num 10], .ref 0, .ref 1] (desk ![1 / 4, 1 / 4] ![1, 1] 0 2000 1) = .ok (.ref 4) s0 ∧
    call (mach Arith.exact ext) 3 (.glob "Ell") [.num 1, .ref 2] s0 = .ok (.ref s0.next) s1 ∧
    call (mach Arith.exact ext) 8 (.glob "cutting_plane_optim") [.ref 4, .ref s0.next, .int 0, .ref 3] s1 = .exc "ValueError" s2 := by
  obtain ⟨o, ho, o', e', hr⟩ := C65_exact_optimum_raises
  have h := C103_profit (ext := ext) (fuel := 0) literals_exact rfl (desk_ok ![1 / 4, 1 / 4] ![1, 1] 0 2000 1) 2 2 10 (.num 1) (isTarget_exact.mpr (show Val.toReal (.int 0) = some ((0 : ℤ) : ℝ) from rfl))
  rw [show Arith.exact.profitInit 2 2 10 ![1 / 4, 1 / 4] ![1, 1] = .ok o from ho] at h
  obtain ⟨s0, h0, h1, -⟩ := h
  have he : Ell.init (.scalar 1) (0 : Vec 2) = .ok unitDisc := by unfold Ell.init; rw [EllCalc.init_two_le le_rfl]; rfl
  obtain ⟨s1, h2, h3⟩ := h1 unitDisc he
  rw [exact_space, profitOracle_exact, show (((0 : ℤ) : ℝ)) = 0 from Int.cast_zero, hr] at h3
  obtain ⟨s2, -, h4⟩ := h3
  exact ⟨s0, s1, s2, h0, h2, h4⟩

/-- The hypotheses of the theorems in exact arithmetic. -/
example : sampleProfit.Proper ∧ RobustProper sampleProfit (1 / 10) (1 / 10) 1 2 (1 / 2) ∧ sampleProfit.Level 8 ⊆ ball 0 20 ∧ Desk Arith.exact (desk sampleProfit.alpha sampleProfit.cost 0 2000 200) 0 1 2 sampleProfit.alpha sampleProfit.cost 0 (.ref 3) ⟨2000, 200⟩ := by
  refine ⟨sampleProfit_proper, sampleProfit_robust, fun y hy => ?_, desk_ok _ _ _ _ _⟩
  obtain ⟨e, he⟩ := (C60_init_rejects (.scalar (20 ^ 2)) (0 : Vec 2)).2 le_rfl
  have h1 := sampleProfit_level8 hy
  have h2 : Ell.init (.scalar (20 ^ 2)) (0 : Vec 2) = .ok disc400 := by unfold Ell.init; rw [EllCalc.init_two_le le_rfl]; norm_num; rfl
  rwa [(init_ball (by norm_num) h2).2.1] at h1

/-- Problems that the constructors reject: a negative limit. -/
example : ∃ P : ProfitProblem, (P.price * P.scale ≤ 0 ∨ P.limit ≤ 0) ∧ 0 < P.price * P.scale := ⟨⟨1, 1, -1, ![1, 1], ![1, 1]⟩, .inr (by norm_num), by norm_num⟩

end Ellalgo.Py
