import Verif.Py.Arrays
import Verif.Py.Refine.EllCalc
import Verif.Model.EllSpace

/-!
# The text of `cutting_plane.py` computes what `Model/CuttingPlane` says

The oracle and the search space are objects of any kind: instances of classes of the program, or objects of the user. What they do is given by a
relation between states of the machine and states of the model that every call keeps.
-/

set_option linter.unusedSimpArgs false

namespace Ellalgo.Py

open CuttingPlane

variable {W O S X C G : Type}

/-- `v.m` is a method. -/
def Has (mc : Machine W) (v : Val) (m : String) (st : St W) : Prop := ∀ cl, getAttr mc cl v m st = .ok (.meth v m) st

/-- An object of the class `Options`; an attribute that was not set has the default of the class. -/
structure OptionsAt (A : Arith) (st : St W) (v : Val) (opts : Options ℝ) : Prop where
  obj : ∃ l attrs, v = .ref l ∧ st.heap l = some (.inst "Options" attrs)
    ∧ (attrs "max_iters" = some (.int opts.maxIters) ∨ attrs "max_iters" = none ∧ opts.maxIters = 2000)
    ∧ ((∃ w, attrs "tolerance" = some w ∧ w.toReal = some opts.tolerance) ∨ attrs "tolerance" = none ∧ opts.tolerance = literal A 1 20 false)

theorem options_max_iters {A : Arith} {ext : ℕ → String → List Val → M W Val} {cl : Val → List Val → M W Val} {st : St W} {v : Val} {opts : Options ℝ}
    (h : OptionsAt A st v opts) : getAttr (mach A ext) cl v "max_iters" st = .ok (.int opts.maxIters) st := by
  obtain ⟨l, attrs, rfl, hl, h | ⟨h, h'⟩, -⟩ := h.obj
  · simp only [py, hl, h]
  · simp only [py, hl, h, h']; rfl

theorem options_tolerance {A : Arith} {ext : ℕ → String → List Val → M W Val} {cl : Val → List Val → M W Val} {st : St W} {v : Val} {opts : Options ℝ}
    (h : OptionsAt A st v opts) : ∃ w, getAttr (mach A ext) cl v "tolerance" st = .ok w st ∧ w.toReal = some opts.tolerance := by
  obtain ⟨l, attrs, rfl, hl, -, ⟨w, h, hw⟩ | ⟨h, h'⟩⟩ := h.obj
  · exact ⟨w, by simp only [py, hl, h], hw⟩
  · exact ⟨.num (literal A 1 20 false), by simp only [py, hl, h]; rfl, by rw [h']; rfl⟩

theorem cmp_lt_real {v w : Val} {x y : ℝ} {st : St W} (hv : v.toReal = some x) (hw : w.toReal = some y) :
    cmpOp .lt v w st = .ok (.bool (ltReal x y)) st := by
  simp only [cmpOp, hv, hw, ordOp, ltReal]; rfl

theorem ints_zero (lo : ℤ) : intsFrom lo 0 = [] := rfl

theorem ints_succ (lo : ℤ) (n : ℕ) : intsFrom lo (n + 1) = .int lo :: intsFrom (lo + 1) n := by
  simp only [intsFrom, List.range_succ_eq_map, List.map_cons, List.map_map]
  congr 1
  · simp
  · refine List.map_congr_left fun k _ => ?_
    simp only [Function.comp, Val.int.injEq]
    push_cast; ring

section

variable (A : Arith) (ext : ℕ → String → List Val → M W Val) (fuel : ℕ)

/-- What all loops need: the options, the centre and `tsq` of the search space at `vs`. In `R st o s xb vb` the value `vb` stands for the point `xb` (or `None`) that the loop keeps. -/
structure Sim (vs vopt : Val) (sp : SearchSpace S X C ℝ) (opts : Options ℝ) (R : St W → O → S → Option X → Val → Prop) (isX : St W → X → Val → Prop) : Prop where
  options : ∀ {st o s xb vb}, R st o s xb vb → OptionsAt A st vopt opts
  hasXc : ∀ {st o s xb vb}, R st o s xb vb → Has (mach A ext) vs "xc" st
  hasTsq : ∀ {st o s xb vb}, R st o s xb vb → Has (mach A ext) vs "tsq" st
  xc : ∀ {st o s xb vb}, R st o s xb vb → ∃ v, call (mach A ext) fuel (.meth vs "xc") [] st = .ok v st ∧ isX st (sp.xc s) v
  tsq : ∀ {st o s xb vb}, R st o s xb vb → ∃ v, call (mach A ext) fuel (.meth vs "tsq") [] st = .ok v st ∧ v.toReal = some (sp.tsq s)

/-- A method of the search space that takes a cut. -/
structure UpdateSim (vs : Val) (m : String) (upd : S → C → S × Except Fault CutStatus) (R : St W → O → S → Option X → Val → Prop) (isC : St W → C → Val → Prop) : Prop where
  has : ∀ {st o s xb vb}, R st o s xb vb → Has (mach A ext) vs m st
  update : ∀ {st o s xb vb c w}, R st o s xb vb → isC st c w → ∃ st', call (mach A ext) fuel (.meth vs m) [w] st = outcome statusVal (upd s c).2 st' ∧ R st' o (upd s c).1 xb vb

/-- What `assess_feas` does. -/
structure FeasSim (vo vs : Val) (omega : OracleFeas O X C) (sp : SearchSpace S X C ℝ) (R : St W → O → S → Option X → Val → Prop) (isX : St W → X → Val → Prop)
    (isC : St W → C → Val → Prop) : Prop where
  has : ∀ {st o s xb vb}, R st o s xb vb → Has (mach A ext) vo "assess_feas" st
  assess : ∀ {st o s xb vb v}, R st o s xb vb → isX st (sp.xc s) v →
    match omega o (sp.xc s) with
    | (o1, .error f) => ∃ st', call (mach A ext) fuel (.meth vo "assess_feas") [v] st = .exc (excOf f) st' ∧ R st' o1 s xb vb
    | (o1, .ok none) => ∃ st', call (mach A ext) fuel (.meth vo "assess_feas") [v] st = .ok .none st' ∧ R st' o1 s xb vb
    | (o1, .ok (some c)) => ∃ w st', call (mach A ext) fuel (.meth vo "assess_feas") [v] st = .ok w st' ∧ R st' o1 s xb vb ∧ isC st' c w ∧ w.isNone = false

/-- What `copy.copy(space.xc())` does: it is kept from then on, and the cut at hand stays. -/
structure CopySim (sp : SearchSpace S X C ℝ) (R : St W → O → S → Option X → Val → Prop) (isX : St W → X → Val → Prop) (isC : St W → C → Val → Prop) : Prop where
  copy : ∀ {st o s xb vb v}, R st o s xb vb → isX st (sp.xc s) v → ∃ w st', copyOf v st = .ok w st' ∧ R st' o s (some (sp.xc s)) w ∧ ∀ c vc, isC st c vc → isC st' c vc

/-- What `assess_optim` does. -/
structure OptimSim (vo : Val) (omega : OracleOptim O X C G) (sp : SearchSpace S X C ℝ) (R : St W → O → S → Option X → Val → Prop) (isX : St W → X → Val → Prop)
    (isC : St W → C → Val → Prop) (isG : G → Val → Prop) : Prop where
  has : ∀ {st o s xb vb}, R st o s xb vb → Has (mach A ext) vo "assess_optim" st
  num : ∀ {g v}, isG g v → v.isNone = false
  assess : ∀ {st o s xb vb v g vg}, R st o s xb vb → isX st (sp.xc s) v → isG g vg →
    match omega o (sp.xc s) g with
    | (o1, .error f) => ∃ st', call (mach A ext) fuel (.meth vo "assess_optim") [v, vg] st = .exc (excOf f) st' ∧ R st' o1 s xb vb
    | (o1, .ok (c, none)) => ∃ w st', call (mach A ext) fuel (.meth vo "assess_optim") [v, vg] st = .ok (.tuple [w, .none]) st' ∧ R st' o1 s xb vb ∧ isC st' c w
    | (o1, .ok (c, some g1)) => ∃ w vg1 st', call (mach A ext) fuel (.meth vo "assess_optim") [v, vg] st = .ok (.tuple [w, vg1]) st' ∧ R st' o1 s xb vb ∧ isC st' c w ∧ isG g1 vg1

/-- What `assess_optim_q` does. -/
structure OptimQSim (vo : Val) (omega : OracleOptimQ O X C G) (sp : SearchSpace S X C ℝ) (R : St W → O → S → Option X → Val → Prop) (isX : St W → X → Val → Prop)
    (isC : St W → C → Val → Prop) (isG : G → Val → Prop) : Prop where
  has : ∀ {st o s xb vb}, R st o s xb vb → Has (mach A ext) vo "assess_optim_q" st
  num : ∀ {g v}, isG g v → v.isNone = false
  assess : ∀ {st o s xb vb v g vg b}, R st o s xb vb → isX st (sp.xc s) v → isG g vg →
    match omega o (sp.xc s) g b with
    | (o1, .error f) => ∃ st', call (mach A ext) fuel (.meth vo "assess_optim_q") [v, vg, .bool b] st = .exc (excOf f) st' ∧ R st' o1 s xb vb
    | (o1, .ok a) => ∃ w vq vg1 vm st', call (mach A ext) fuel (.meth vo "assess_optim_q") [v, vg, .bool b] st = .ok (.tuple [w, vq, vg1, vm]) st'
        ∧ isC st' a.cut w ∧ (∀ st, truthy vm st = Res.ok a.moreAlt (st : St W))
        ∧ match a.gamma1 with
          | none => vg1 = .none ∧ R st' o1 s xb vb
          | some g1 => isG g1 vg1 ∧ R st' o1 s (some a.xq) vq

end

/-- The outcome of `cutting_plane_optim` and `cutting_plane_optim_q`. -/
def OptimOutcome (R : St W → O → S → Option X → Val → Prop) (isG : G → Val → Prop) (r : O × S × Except Fault (Option X × G × ℕ)) (res : Res W Val) : Prop :=
  match r with
  | (o, s, .error f) => ∃ st' xb vb, res = .exc (excOf f) st' ∧ R st' o s xb vb
  | (o, s, .ok (xb, g, k)) => ∃ st' vb vg, res = .ok (.tuple [vb, vg, .int k]) st' ∧ isG g vg ∧ R st' o s xb vb

/-- The outcome of `cutting_plane_feas`. -/
def FeasOutcome (R : St W → O → S → Option X → Val → Prop) (isX : St W → X → Val → Prop) (xb : Option X) (vb : Val) (r : O × S × Except Fault (Option X × ℕ)) (res : Res W Val) : Prop :=
  match r with
  | (o, s, .error f) => ∃ st', res = .exc (excOf f) st' ∧ R st' o s xb vb
  | (o, s, .ok (none, k)) => ∃ st', res = .ok (.tuple [.none, .int k]) st' ∧ R st' o s xb vb
  | (o, s, .ok (some x, k)) => ∃ v st', res = .ok (.tuple [v, .int k]) st' ∧ isX st' x v ∧ R st' o s xb vb

/-- The body of the loop of a function. -/
def loopBody : List PStmt → List PStmt
  | .for_ _ _ b :: _ => b
  | _ :: ss => loopBody ss
  | [] => []

theorem statusVal_success (s : CutStatus) (st : St W) : cmpOp .ne (statusVal s) (.glob "CutStatus.Success") st = .ok (.bool (decide (s ≠ .success))) st := by
  cases s <;> simp [statusVal, py]

theorem statusVal_eq (s : CutStatus) (st : St W) :
    cmpOp .eq (statusVal s) (.glob "CutStatus.Success") st = .ok (.bool (decide (s = .success))) st
    ∧ cmpOp .eq (statusVal s) (.glob "CutStatus.NoSoln") st = .ok (.bool (decide (s = .noSoln))) st
    ∧ cmpOp .eq (statusVal s) (.glob "CutStatus.NoEffect") st = .ok (.bool (decide (s = .noEffect))) st := by
  cases s <;> simp [statusVal, py]

section feas

variable {A : Arith} {ext : ℕ → String → List Val → M W Val} {fuel : ℕ} {vo vs vopt : Val} {omega : OracleFeas O X C} {sp : SearchSpace S X C ℝ} {opts : Options ℝ}
  {R : St W → O → S → Option X → Val → Prop} {isX : St W → X → Val → Prop} {isC : St W → C → Val → Prop}
  (h : Sim A ext (fuel + 1) vs vopt sp opts R isX) (hf : FeasSim A ext (fuel + 1) vo vs omega sp R isX isC)
  (hu : UpdateSim A ext (fuel + 1) vs "update_bias_cut" sp.updateBiasCut R isC)
include h hf hu

theorem feas_loop (m niter : ℕ) (hm : niter + m = opts.maxIters) {st : St W} {o : O} {s : S} {xb : Option X} {vb : Val} (hR : R st o s xb vb) {env : Env}
    (ho : env "omega" = some vo) (hs : env "space" = some vs) (hopt : env "options" = some vopt) (hg : env "CutStatus" = none) :
    FeasOutcome R isX xb vb (feasLoop omega sp ltReal opts.tolerance m niter o s)
      (((loop (turn (mach A ext) (call (mach A ext) (fuel + 1)) (.name "niter") (loopBody Source.CuttingPlane.cutting_plane_feas.body)) (intsFrom niter m) env st).bind
        (after (mach A ext) (call (mach A ext) (fuel + 1)) [.ret (.tuple [.none, .attr (.name "options") "max_iters"])])).bind result) := by
  induction m generalizing niter st o s env with
  | zero =>
    simp only [ints_zero, py, hopt, options_max_iters (h.options hR), feasLoop]
    exact ⟨st, by rw [← hm]; rfl, hR⟩
  | succ m ih =>
    obtain ⟨v, hx, hX⟩ := h.xc hR
    have hass := hf.assess hR hX
    have hm' : niter + 1 + m = opts.maxIters := by omega
    simp only [ints_succ, loopBody, Source.CuttingPlane.cutting_plane_feas, feasLoop]
    rcases homega : omega o (sp.xc s) with ⟨o1, f | _ | c⟩ <;> rw [homega] at hass <;> dsimp only at hass ⊢
    · obtain ⟨st1, h1, hR1⟩ := hass
      simp only [py, ho, hs, hf.has hR _, h.hasXc hR _, hx, h1]
      exact ⟨_, rfl, hR1⟩
    · obtain ⟨st1, h1, hR1⟩ := hass
      obtain ⟨v', hx', hX'⟩ := h.xc hR1
      simp only [py, ho, hs, hf.has hR _, h.hasXc hR _, hx, h1, h.hasXc hR1 _, hx']
      exact ⟨_, _, rfl, hX', hR1⟩
    · obtain ⟨w, st1, h1, hR1, hC1, hw⟩ := hass
      obtain ⟨st2, h2, hR2⟩ := hu.update hR1 hC1
      simp only [py, ho, hs, hf.has hR _, h.hasXc hR _, hx, h1, hw, hu.has hR1 _, h2]
      rcases hup : sp.updateBiasCut s c with ⟨s1, f | status⟩ <;> rw [hup] at h2 hR2 <;> dsimp only at h2 hR2 ⊢
      · simp only [py]
        exact ⟨_, rfl, hR2⟩
      · obtain ⟨t, ht, htv⟩ := h.tsq hR2
        obtain ⟨w', hw', hwv⟩ := options_tolerance (ext := ext) (cl := call (mach A ext) (fuel + 1)) (h.options hR2)
        simp only [py, hg, statusVal_success, hs, hopt, h.hasTsq hR2 _, ht, hw', cmp_lt_real htv hwv]
        by_cases hsu : status = .success
        · simp only [hsu, py]
          by_cases hlt : ltReal (sp.tsq s1) opts.tolerance = true
          · simp only [hlt, py, or_true, not_true_eq_false]
            exact ⟨_, rfl, hR2⟩
          · rw [Bool.not_eq_true] at hlt
            simp only [hlt, py, or_false, not_true_eq_false]
            have hh := ih (niter + 1) hm' hR2 (env := ((env.set "niter" (.int niter)).set "cut" w).set "status" (statusVal .success))
              (by simp only [py, ho]) (by simp only [py, hs]) (by simp only [py, hopt]) (by simp only [py, hg])
            rw [rbind_assoc] at hh
            exact hh
        · simp only [hsu, py, true_or]
          exact ⟨_, rfl, hR2⟩

/-- `cutting_plane_feas(omega, space, options)`. -/
theorem call_feas {st : St W} {o : O} {s : S} {xb : Option X} {vb : Val} (hR : R st o s xb vb) :
    FeasOutcome R isX xb vb (feas omega sp ltReal o s opts) (call (mach A ext) (fuel + 2) (.glob "cutting_plane_feas") [vo, vs, vopt] st) := by
  rw [call_fun fun_cutting_plane_feas rfl]
  have hh := feas_loop h hf hu opts.maxIters 0 (zero_add _) hR (env := ((Env.empty.set "omega" vo).set "space" vs).set "options" vopt)
    (by simp only [py]) (by simp only [py]) (by simp only [py]) (by simp only [py])
  rw [rbind_assoc] at hh
  simp only [loopBody, Source.CuttingPlane.cutting_plane_feas] at hh ⊢
  simp only [py, options_max_iters (h.options hR), Int.toNat_natCast]
  exact hh

end feas

section optim

variable {A : Arith} {ext : ℕ → String → List Val → M W Val} {fuel : ℕ} {vo vs vopt : Val} {omega : OracleOptim O X C G} {sp : SearchSpace S X C ℝ} {opts : Options ℝ}
  {R : St W → O → S → Option X → Val → Prop} {isX : St W → X → Val → Prop} {isC : St W → C → Val → Prop} {isG : G → Val → Prop}
  (h : Sim A ext (fuel + 1) vs vopt sp opts R isX) (hf : OptimSim A ext (fuel + 1) vo omega sp R isX isC isG) (hc : CopySim sp R isX isC)
  (hu : UpdateSim A ext (fuel + 1) vs "update_bias_cut" sp.updateBiasCut R isC) (hu' : UpdateSim A ext (fuel + 1) vs "update_central_cut" sp.updateCentralCut R isC)
include h hf hc hu hu'

theorem optim_loop (m niter : ℕ) (hm : niter + m = opts.maxIters) {st : St W} {o : O} {s : S} {xb : Option X} {vb : Val} (hR : R st o s xb vb) {g : G} {vg : Val} (hG : isG g vg) {env : Env}
    (ho : env "omega" = some vo) (hs : env "space" = some vs) (hopt : env "options" = some vopt) (hg : env "CutStatus" = none) (hcp : env "copy" = none) (hgam : env "gamma" = some vg)
    (hb : env "x_best" = some vb) :
    OptimOutcome R isG (optimLoop omega sp ltReal opts.tolerance m niter o s g xb)
      (((loop (turn (mach A ext) (call (mach A ext) (fuel + 1)) (.name "niter") (loopBody Source.CuttingPlane.cutting_plane_optim.body)) (intsFrom niter m) env st).bind
        (after (mach A ext) (call (mach A ext) (fuel + 1)) [.ret (.tuple [.name "x_best", .name "gamma", .attr (.name "options") "max_iters"])])).bind result) := by
  induction m generalizing niter st o s g vg xb vb env with
  | zero =>
    simp only [ints_zero, py, hopt, hb, hgam, options_max_iters (h.options hR), optimLoop]
    exact ⟨st, _, _, by rw [← hm]; rfl, hG, hR⟩
  | succ m ih =>
    obtain ⟨v, hx, hX⟩ := h.xc hR
    have hass := hf.assess hR hX hG
    have hm' : niter + 1 + m = opts.maxIters := by omega
    simp only [ints_succ, loopBody, Source.CuttingPlane.cutting_plane_optim, optimLoop]
    rcases homega : omega o (sp.xc s) g with ⟨o1, f | ⟨c, _ | g1⟩⟩ <;> rw [homega] at hass <;> dsimp only at hass ⊢
    · obtain ⟨st1, h1, hR1⟩ := hass
      simp only [py, ho, hs, hgam, hf.has hR _, h.hasXc hR _, hx, h1]
      exact ⟨_, _, _, rfl, hR1⟩
    · obtain ⟨w, st1, h1, hR1, hC1⟩ := hass
      obtain ⟨st2, h2, hR2⟩ := hu.update hR1 hC1
      simp only [py, ho, hs, hgam, hf.has hR _, h.hasXc hR _, hx, h1, hu.has hR1 _, h2]
      rcases hup : sp.updateBiasCut s c with ⟨s1, f | status⟩ <;> rw [hup] at h2 hR2 <;> dsimp only at h2 hR2 ⊢
      · simp only [py]
        exact ⟨_, _, _, rfl, hR2⟩
      · obtain ⟨t, ht, htv⟩ := h.tsq hR2
        obtain ⟨w', hw', hwv⟩ := options_tolerance (ext := ext) (cl := call (mach A ext) (fuel + 1)) (h.options hR2)
        simp only [py, hg, statusVal_success, hs, hopt, hgam, hb, h.hasTsq hR2 _, ht, hw', cmp_lt_real htv hwv]
        by_cases hsu : status = .success
        · simp only [hsu, py]
          by_cases hlt : ltReal (sp.tsq s1) opts.tolerance = true
          · simp only [hlt, py, or_true, not_true_eq_false]
            exact ⟨_, _, _, rfl, hG, hR2⟩
          · rw [Bool.not_eq_true] at hlt
            simp only [hlt, py, or_false, not_true_eq_false]
            have hh := ih (niter + 1) hm' hR2 hG (env := (((env.set "niter" (.int niter)).set "cut" w).set "gamma1" .none).set "status" (statusVal .success))
              (by simp only [py, ho]) (by simp only [py, hs]) (by simp only [py, hopt]) (by simp only [py, hg]) (by simp only [py, hcp]) (by simp only [py, hgam]) (by simp only [py, hb])
            rw [rbind_assoc] at hh
            exact hh
        · simp only [hsu, py, true_or]
          exact ⟨_, _, _, rfl, hG, hR2⟩
    · obtain ⟨w, vg1, st1, h1, hR1, hC1, hG1⟩ := hass
      obtain ⟨v1, hx1, hX1⟩ := h.xc hR1
      obtain ⟨vb2, st2, h2, hR2, hC2⟩ := hc.copy hR1 hX1
      obtain ⟨st3, h3, hR3⟩ := hu'.update hR2 (hC2 _ _ hC1)
      simp only [py, ho, hs, hgam, hcp, hf.has hR _, h.hasXc hR _, h.hasXc hR1 _, hx, h1, hx1, h2, hf.num hG1, hu'.has hR2 _, h3]
      rcases hup : sp.updateCentralCut s c with ⟨s1, f | status⟩ <;> rw [hup] at h3 hR3 <;> dsimp only at h3 hR3 ⊢
      · simp only [py]
        exact ⟨_, _, _, rfl, hR3⟩
      · obtain ⟨t, ht, htv⟩ := h.tsq hR3
        obtain ⟨w', hw', hwv⟩ := options_tolerance (ext := ext) (cl := call (mach A ext) (fuel + 1)) (h.options hR3)
        simp only [py, hg, statusVal_success, hs, hopt, h.hasTsq hR3 _, ht, hw', cmp_lt_real htv hwv]
        by_cases hsu : status = .success
        · simp only [hsu, py]
          by_cases hlt : ltReal (sp.tsq s1) opts.tolerance = true
          · simp only [hlt, py, or_true, not_true_eq_false]
            exact ⟨_, _, _, rfl, hG1, hR3⟩
          · rw [Bool.not_eq_true] at hlt
            simp only [hlt, py, or_false, not_true_eq_false]
            have hh := ih (niter + 1) hm' hR3 hG1 (env := (((((env.set "niter" (.int niter)).set "cut" w).set "gamma1" vg1).set "gamma" vg1).set "x_best" vb2).set "status" (statusVal .success))
              (by simp only [py, ho]) (by simp only [py, hs]) (by simp only [py, hopt]) (by simp only [py, hg]) (by simp only [py, hcp]) (by simp only [py]) (by simp only [py])
            rw [rbind_assoc] at hh
            exact hh
        · simp only [hsu, py, true_or]
          exact ⟨_, _, _, rfl, hG1, hR3⟩

/-- `cutting_plane_optim(omega, space, gamma, options)`. -/
theorem call_optim {st : St W} {o : O} {s : S} (hR : R st o s none .none) {g : G} {vg : Val} (hG : isG g vg) :
    OptimOutcome R isG (optim omega sp ltReal o s g opts) (call (mach A ext) (fuel + 2) (.glob "cutting_plane_optim") [vo, vs, vg, vopt] st) := by
  rw [call_fun fun_cutting_plane_optim rfl]
  have hh := optim_loop h hf hc hu hu' opts.maxIters 0 (zero_add _) hR hG (env := ((((Env.empty.set "omega" vo).set "space" vs).set "gamma" vg).set "options" vopt).set "x_best" .none)
    (by simp only [py]) (by simp only [py]) (by simp only [py]) (by simp only [py]) (by simp only [py]) (by simp only [py]) (by simp only [py])
  rw [rbind_assoc] at hh
  simp only [loopBody, Source.CuttingPlane.cutting_plane_optim] at hh ⊢
  simp only [py, options_max_iters (h.options hR), Int.toNat_natCast]
  exact hh

end optim

section optimQ

variable {A : Arith} {ext : ℕ → String → List Val → M W Val} {fuel : ℕ} {vo vs vopt : Val} {omega : OracleOptimQ O X C G} {sp : SearchSpace S X C ℝ} {opts : Options ℝ}
  {R : St W → O → S → Option X → Val → Prop} {isX : St W → X → Val → Prop} {isC : St W → C → Val → Prop} {isG : G → Val → Prop}
  (h : Sim A ext (fuel + 1) vs vopt sp opts R isX) (hf : OptimQSim A ext (fuel + 1) vo omega sp R isX isC isG)
  (hu : UpdateSim A ext (fuel + 1) vs "update_q" sp.updateQ R isC)
include h hf hu

theorem optimQ_loop (m niter : ℕ) (hm : niter + m = opts.maxIters) {st : St W} {o : O} {s : S} {xb : Option X} {vb : Val} (hR : R st o s xb vb) {g : G} {vg : Val} (hG : isG g vg)
    {retry : Bool} {env : Env} (ho : env "omega" = some vo) (hs : env "space_q" = some vs) (hopt : env "options" = some vopt) (hg : env "CutStatus" = none) (hgam : env "gamma" = some vg)
    (hb : env "x_best" = some vb) (hr : env "retry" = some (.bool retry)) :
    OptimOutcome R isG (optimQLoop omega sp ltReal opts.tolerance m niter o s g xb retry)
      (((loop (turn (mach A ext) (call (mach A ext) (fuel + 1)) (.name "niter") (loopBody Source.CuttingPlane.cutting_plane_optim_q.body)) (intsFrom niter m) env st).bind
        (after (mach A ext) (call (mach A ext) (fuel + 1)) [.ret (.tuple [.name "x_best", .name "gamma", .attr (.name "options") "max_iters"])])).bind result) := by
  induction m generalizing niter st o s g vg xb vb retry env with
  | zero =>
    simp only [ints_zero, py, hopt, hb, hgam, options_max_iters (h.options hR), optimQLoop]
    exact ⟨st, _, _, by rw [← hm]; rfl, hG, hR⟩
  | succ m ih =>
    obtain ⟨v, hx, hX⟩ := h.xc hR
    have hass := hf.assess (b := retry) hR hX hG
    have hm' : niter + 1 + m = opts.maxIters := by omega
    simp only [ints_succ, loopBody, Source.CuttingPlane.cutting_plane_optim_q, optimQLoop]
    rcases homega : omega o (sp.xc s) g retry with ⟨o1, f | ⟨c, xq, g1, more⟩⟩ <;> rw [homega] at hass <;> dsimp only at hass ⊢
    · obtain ⟨st1, h1, hR1⟩ := hass
      simp only [py, ho, hs, hgam, hr, hf.has hR _, h.hasXc hR _, hx, h1]
      exact ⟨_, _, _, rfl, hR1⟩
    · obtain ⟨w, vq, vg1, vm, st1, h1, hC1, hvm, hg1⟩ := hass
      cases g1 with
      | none =>
        obtain ⟨rfl, hR1⟩ := hg1
        obtain ⟨st2, h2, hR2⟩ := hu.update hR1 hC1
        simp only [py, ho, hs, hgam, hr, hb, hf.has hR _, h.hasXc hR _, hx, h1, hu.has hR1 _, h2, Option.getD, Option.isSome]
        rcases hup : sp.updateQ s c with ⟨s1, f | status⟩ <;> rw [hup] at h2 hR2 <;> dsimp only at h2 hR2 ⊢
        · simp only [py]
          exact ⟨_, _, _, rfl, hR2⟩
        · obtain ⟨t, ht, htv⟩ := h.tsq hR2
          obtain ⟨w', hw', hwv⟩ := options_tolerance (ext := ext) (cl := call (mach A ext) (fuel + 1)) (h.options hR2)
          simp only [py, hg, statusVal_eq, hs, hopt, hgam, hb, hvm, h.hasTsq hR2 _, ht, hw', cmp_lt_real htv hwv]
          cases status with
          | success =>
            simp only [py, reduceCtorEq]
            by_cases hlt : ltReal (sp.tsq s1) opts.tolerance = true
            · simp only [hlt, py]
              exact ⟨_, _, _, rfl, hG, hR2⟩
            · rw [Bool.not_eq_true] at hlt
              simp only [hlt, py]
              have hh := ih (niter + 1) hm' hR2 hG (retry := false) (env := ((((((env.set "niter" (.int niter)).set "cut" w).set "x_q" vq).set "gamma1" .none).set "more_alt" vm).set "status" (statusVal .success)).set "retry" (.bool false))
                (by simp only [py, ho]) (by simp only [py, hs]) (by simp only [py, hopt]) (by simp only [py, hg]) (by simp only [py, hgam]) (by simp only [py, hb]) (by simp only [py])
              rw [rbind_assoc] at hh
              exact hh
          | noSoln =>
            simp only [py, reduceCtorEq]
            exact ⟨_, _, _, rfl, hG, hR2⟩
          | noEffect =>
            simp only [py, reduceCtorEq]
            cases more with
            | false =>
              simp only [py]
              exact ⟨_, _, _, rfl, hG, hR2⟩
            | true =>
              simp only [py]
              by_cases hlt : ltReal (sp.tsq s1) opts.tolerance = true
              · simp only [hlt, py]
                exact ⟨_, _, _, rfl, hG, hR2⟩
              · rw [Bool.not_eq_true] at hlt
                simp only [hlt, py]
                have hh := ih (niter + 1) hm' hR2 hG (retry := true) (env := ((((((env.set "niter" (.int niter)).set "cut" w).set "x_q" vq).set "gamma1" .none).set "more_alt" vm).set "status" (statusVal .noEffect)).set "retry" (.bool true))
                  (by simp only [py, ho]) (by simp only [py, hs]) (by simp only [py, hopt]) (by simp only [py, hg]) (by simp only [py, hgam]) (by simp only [py, hb]) (by simp only [py])
                rw [rbind_assoc] at hh
                exact hh
          | unknown =>
            simp only [py, reduceCtorEq]
            by_cases hlt : ltReal (sp.tsq s1) opts.tolerance = true
            · simp only [hlt, py]
              exact ⟨_, _, _, rfl, hG, hR2⟩
            · rw [Bool.not_eq_true] at hlt
              simp only [hlt, py]
              have hh := ih (niter + 1) hm' hR2 hG (retry := retry) (env := (((((env.set "niter" (.int niter)).set "cut" w).set "x_q" vq).set "gamma1" .none).set "more_alt" vm).set "status" (statusVal .unknown))
                (by simp only [py, ho]) (by simp only [py, hs]) (by simp only [py, hopt]) (by simp only [py, hg]) (by simp only [py, hgam]) (by simp only [py, hb]) (by simp only [py, hr])
              rw [rbind_assoc] at hh
              exact hh
      | some g1 =>
        obtain ⟨hG1, hR1⟩ := hg1
        obtain ⟨st2, h2, hR2⟩ := hu.update hR1 hC1
        simp only [py, ho, hs, hgam, hr, hb, hf.has hR _, h.hasXc hR _, hx, h1, hu.has hR1 _, h2, hf.num hG1, Option.getD, Option.isSome]
        rcases hup : sp.updateQ s c with ⟨s1, f | status⟩ <;> rw [hup] at h2 hR2 <;> dsimp only at h2 hR2 ⊢
        · simp only [py]
          exact ⟨_, _, _, rfl, hR2⟩
        · obtain ⟨t, ht, htv⟩ := h.tsq hR2
          obtain ⟨w', hw', hwv⟩ := options_tolerance (ext := ext) (cl := call (mach A ext) (fuel + 1)) (h.options hR2)
          simp only [py, hg, statusVal_eq, hs, hopt, hgam, hb, hvm, h.hasTsq hR2 _, ht, hw', cmp_lt_real htv hwv]
          cases status with
          | success =>
            simp only [py, reduceCtorEq]
            by_cases hlt : ltReal (sp.tsq s1) opts.tolerance = true
            · simp only [hlt, py]
              exact ⟨_, _, _, rfl, hG1, hR2⟩
            · rw [Bool.not_eq_true] at hlt
              simp only [hlt, py]
              have hh := ih (niter + 1) hm' hR2 hG1 (retry := false) (env := ((((((((env.set "niter" (.int niter)).set "cut" w).set "x_q" vq).set "gamma1" vg1).set "more_alt" vm).set "gamma" vg1).set "x_best" vq).set "status" (statusVal .success)).set "retry" (.bool false))
                (by simp only [py, ho]) (by simp only [py, hs]) (by simp only [py, hopt]) (by simp only [py, hg]) (by simp only [py, hgam]) (by simp only [py, hb]) (by simp only [py])
              rw [rbind_assoc] at hh
              exact hh
          | noSoln =>
            simp only [py, reduceCtorEq]
            exact ⟨_, _, _, rfl, hG1, hR2⟩
          | noEffect =>
            simp only [py, reduceCtorEq]
            cases more with
            | false =>
              simp only [py]
              exact ⟨_, _, _, rfl, hG1, hR2⟩
            | true =>
              simp only [py]
              by_cases hlt : ltReal (sp.tsq s1) opts.tolerance = true
              · simp only [hlt, py]
                exact ⟨_, _, _, rfl, hG1, hR2⟩
              · rw [Bool.not_eq_true] at hlt
                simp only [hlt, py]
                have hh := ih (niter + 1) hm' hR2 hG1 (retry := true) (env := ((((((((env.set "niter" (.int niter)).set "cut" w).set "x_q" vq).set "gamma1" vg1).set "more_alt" vm).set "gamma" vg1).set "x_best" vq).set "status" (statusVal .noEffect)).set "retry" (.bool true))
                  (by simp only [py, ho]) (by simp only [py, hs]) (by simp only [py, hopt]) (by simp only [py, hg]) (by simp only [py, hgam]) (by simp only [py, hb]) (by simp only [py])
                rw [rbind_assoc] at hh
                exact hh
          | unknown =>
            simp only [py, reduceCtorEq]
            by_cases hlt : ltReal (sp.tsq s1) opts.tolerance = true
            · simp only [hlt, py]
              exact ⟨_, _, _, rfl, hG1, hR2⟩
            · rw [Bool.not_eq_true] at hlt
              simp only [hlt, py]
              have hh := ih (niter + 1) hm' hR2 hG1 (retry := retry) (env := (((((((env.set "niter" (.int niter)).set "cut" w).set "x_q" vq).set "gamma1" vg1).set "more_alt" vm).set "gamma" vg1).set "x_best" vq).set "status" (statusVal .unknown))
                (by simp only [py, ho]) (by simp only [py, hs]) (by simp only [py, hopt]) (by simp only [py, hg]) (by simp only [py, hgam]) (by simp only [py, hb]) (by simp only [py, hr])
              rw [rbind_assoc] at hh
              exact hh

/-- `cutting_plane_optim_q(omega, space_q, gamma, options)`. -/
theorem call_optimQ {st : St W} {o : O} {s : S} (hR : R st o s none .none) {g : G} {vg : Val} (hG : isG g vg) :
    OptimOutcome R isG (optimQ omega sp ltReal o s g opts) (call (mach A ext) (fuel + 2) (.glob "cutting_plane_optim_q") [vo, vs, vg, vopt] st) := by
  rw [call_fun fun_cutting_plane_optim_q rfl]
  have hh := optimQ_loop h hf hu opts.maxIters 0 (zero_add _) hR hG (retry := false)
    (env := (((((Env.empty.set "omega" vo).set "space_q" vs).set "gamma" vg).set "options" vopt).set "x_best" .none).set "retry" (.bool false))
    (by simp only [py]) (by simp only [py]) (by simp only [py]) (by simp only [py]) (by simp only [py]) (by simp only [py]) (by simp only [py])
  rw [rbind_assoc] at hh
  simp only [loopBody, Source.CuttingPlane.cutting_plane_optim_q] at hh ⊢
  simp only [py, options_max_iters (h.options hR), Int.toNat_natCast]
  exact hh

end optimQ

section bsearch

variable {D : Type}

/-- What the numbers of `bsearch` do: `gv` is the value of an upper bound, `isL` and `isD` say which values stand for a lower bound and for half the distance, `T` is the type. -/
structure BSNumSim (A : Arith) (ext : ℕ → String → List Val → M W Val) (fuel : ℕ) (num : BSNum G D) (tol : ℝ) (gv : G → Val) (isL : G → Val → Prop) (isD : D → Val → Prop) (T : String) : Prop where
  type : ∀ u (st : St W), builtin A "type" [gv u] st = .ok (.glob T) st
  lower : ∀ g, isL g (gv g)
  tau : ∀ {l vl} u, isL l vl → ∃ v w, (∀ st : St W, binOp A .sub (gv u) vl st = .ok v st) ∧ (∀ st : St W, binOp A .div v (.int 2) st = .ok w st) ∧ isD (num.tau l u) w
  small : ∀ {d v}, isD d v → ∃ x, v.toReal = some x ∧ num.small d = ltReal x tol
  mid : ∀ {l vl d vd}, isL l vl → isD d vd → ∃ v, (∀ st : St W, binOp A .add vl vd st = .ok v st) ∧ ∀ st, call (mach A ext) fuel (.glob T) [v] st = .ok (gv (num.mid l d)) st

/-- What `assess_bs` does. -/
structure BSSim (A : Arith) (ext : ℕ → String → List Val → M W Val) (fuel : ℕ) (vo vopt : Val) (omega : OracleBS O G) (opts : Options ℝ) (R : St W → O → Prop) (gv : G → Val) : Prop where
  options : ∀ {st o}, R st o → OptionsAt A st vopt opts
  has : ∀ {st o}, R st o → Has (mach A ext) vo "assess_bs" st
  assess : ∀ {st o} g, R st o →
    match omega o g with
    | (o1, .error f) => ∃ st', call (mach A ext) fuel (.meth vo "assess_bs") [gv g] st = .exc (excOf f) st' ∧ R st' o1
    | (o1, .ok b) => ∃ w st', call (mach A ext) fuel (.meth vo "assess_bs") [gv g] st = .ok w st' ∧ R st' o1 ∧ ∀ st : St W, truthy w st = .ok b st

/-- The outcome of `bsearch`. -/
def BSOutcome (R : St W → O → Prop) (gv : G → Val) (r : O × G × Except Fault (G × ℕ)) (res : Res W Val) : Prop :=
  match r with
  | (o, _, .error f) => ∃ st', res = .exc (excOf f) st' ∧ R st' o
  | (o, _, .ok (u, k)) => ∃ st', res = .ok (.tuple [gv u, .int k]) st' ∧ R st' o

variable {A : Arith} {ext : ℕ → String → List Val → M W Val} {fuel : ℕ} {vo vopt : Val} {omega : OracleBS O G} {opts : Options ℝ} {R : St W → O → Prop}
  {num : BSNum G D} {gv : G → Val} {isL : G → Val → Prop} {isD : D → Val → Prop} {T : String}
  (hn : BSNumSim A ext (fuel + 1) num opts.tolerance gv isL isD T) (h : BSSim A ext (fuel + 1) vo vopt omega opts R gv)
include hn h

theorem bsearch_loop (m niter : ℕ) (hm : niter + m = opts.maxIters) {st : St W} {o : O} (hR : R st o) {l u : G} {vl : Val} (hl : isL l vl) {env : Env}
    (ho : env "omega" = some vo) (hopt : env "options" = some vopt) (hlo : env "lower" = some vl) (hup : env "upper" = some (gv u)) (hT : env "T" = some (.glob T)) :
    BSOutcome R gv (bsearchLoop omega num m niter o l u)
      (((loop (turn (mach A ext) (call (mach A ext) (fuel + 1)) (.name "niter") (loopBody Source.CuttingPlane.bsearch.body)) (intsFrom niter m) env st).bind
        (after (mach A ext) (call (mach A ext) (fuel + 1)) [.ret (.tuple [.name "upper", .attr (.name "options") "max_iters"])])).bind result) := by
  induction m generalizing niter st o l u vl env with
  | zero =>
    simp only [ints_zero, py, hopt, hup, options_max_iters (h.options hR), bsearchLoop]
    exact ⟨st, by rw [← hm]; rfl, hR⟩
  | succ m ih =>
    have hm' : niter + 1 + m = opts.maxIters := by omega
    obtain ⟨v, w, h1, h2, hD⟩ := hn.tau u hl
    obtain ⟨x, hx, hs⟩ := hn.small hD
    obtain ⟨v', h3, h4⟩ := hn.mid hl hD
    obtain ⟨w', hw', hwv⟩ := options_tolerance (ext := ext) (cl := call (mach A ext) (fuel + 1)) (h.options hR)
    simp only [ints_succ, loopBody, Source.CuttingPlane.bsearch, bsearchLoop]
    simp only [py, ho, hopt, hlo, hup, hT, h1, h2, hw', cmp_lt_real hx hwv, hs]
    cases hlt : ltReal x opts.tolerance with
    | true =>
      simp only [py]
      exact ⟨_, rfl, hR⟩
    | false =>
      have hass := h.assess (num.mid l (num.tau l u)) hR
      simp only [py, ho, hopt, hlo, hup, hT, h3, h4, h.has hR _]
      rcases homega : omega o (num.mid l (num.tau l u)) with ⟨o1, f | b⟩ <;> rw [homega] at hass <;> dsimp only at hass ⊢
      · obtain ⟨st1, h5, hR1⟩ := hass
        simp only [py, h5]
        exact ⟨_, rfl, hR1⟩
      · obtain ⟨vw, st1, h5, hR1, h6⟩ := hass
        simp only [py, h5, h6]
        cases b with
        | true =>
          simp only [py]
          have hh := ih (niter + 1) hm' hR1 hl (u := num.mid l (num.tau l u))
            (env := (((env.set "niter" (.int niter)).set "tau" w).set "gamma" (gv (num.mid l (num.tau l u)))).set "upper" (gv (num.mid l (num.tau l u))))
            (by simp only [py, ho]) (by simp only [py, hopt]) (by simp only [py, hlo]) (by simp only [py]) (by simp only [py, hT])
          rw [rbind_assoc] at hh
          exact hh
        | false =>
          simp only [py]
          have hh := ih (niter + 1) hm' hR1 (hn.lower (num.mid l (num.tau l u))) (u := u)
            (env := (((env.set "niter" (.int niter)).set "tau" w).set "gamma" (gv (num.mid l (num.tau l u)))).set "lower" (gv (num.mid l (num.tau l u))))
            (by simp only [py, ho]) (by simp only [py, hopt]) (by simp only [py]) (by simp only [py, hup]) (by simp only [py, hT])
          rw [rbind_assoc] at hh
          exact hh

/-- `bsearch(omega, (lower, upper), options)`. -/
theorem call_bsearch {st : St W} {o : O} (hR : R st o) {l u : G} {vl : Val} (hl : isL l vl) :
    BSOutcome R gv (bsearch omega num o (l, u) opts.maxIters) (call (mach A ext) (fuel + 2) (.glob "bsearch") [vo, .tuple [vl, gv u], vopt] st) := by
  rw [call_fun fun_bsearch rfl]
  have hh := bsearch_loop hn h opts.maxIters 0 (zero_add _) hR hl (u := u)
    (env := (((((Env.empty.set "omega" vo).set "intrvl" (.tuple [vl, gv u])).set "options" vopt).set "lower" vl).set "upper" (gv u)).set "T" (.glob T))
    (by simp only [py]) (by simp only [py]) (by simp only [py]) (by simp only [py]) (by simp only [py])
  rw [rbind_assoc] at hh
  simp only [loopBody, Source.CuttingPlane.bsearch] at hh ⊢
  simp only [py, hn.type, options_max_iters (h.options hR), Int.toNat_natCast]
  exact hh

end bsearch

section numbers

variable (A : Arith) (ext : ℕ → String → List Val → M W Val) (fuel : ℕ)

/-- The numbers of `bsearch` (`cutting_plane.py:325-330`) when `upper` is a float. -/
noncomputable def floatNum (A : Arith) (tol : ℝ) : BSNum ℝ ℝ where
  tau l u := A.div (A.sub u l) (A.rnd 2)
  small t := ltReal t tol
  mid l t := A.add l t

/-- The numbers of `bsearch` when both bounds are integers. -/
noncomputable def intNum (A : Arith) (tol : ℝ) : BSNum ℤ ℝ where
  tau l u := A.rnd ((u - l : ℤ) / 2)
  small t := ltReal t tol
  mid l t := by classical exact if 0 ≤ A.add (A.rnd l) t then ⌊A.add (A.rnd l) t⌋ else ⌈A.add (A.rnd l) t⌉

theorem floatNum_sim (h2 : A.rnd 2 ≠ 0) (tol : ℝ) :
    BSNumSim A ext (fuel + 1) (floatNum A tol) tol Val.num (fun x v => v.toFloat A = some x) (fun x v => v = .num x) "float" where
  type _ _ := rfl
  lower _ := rfl
  tau {l vl} u hl := by
    refine ⟨.num (A.sub u l), _, fun st => ?_, fun st => ?_, rfl⟩
    · rw [binOp_right hl (by decide)]; rfl
    · rw [div_right rfl, if_neg (by exact_mod_cast h2)]; simp [floatNum]
  small {d v} h := ⟨d, by rw [h]; rfl, rfl⟩
  mid {l vl d vd} hl hd := by
    subst hd
    exact ⟨_, fun st => by rw [binOp_left hl]; rfl, fun st => by simp only [py]; rfl⟩

theorem intNum_sim (tol : ℝ) :
    BSNumSim A ext (fuel + 1) (intNum A tol) tol Val.int (fun x v => v = .int x) (fun x v => v = .num x) "int" where
  type _ _ := rfl
  lower _ := rfl
  tau {l vl} u hl := by
    subst hl
    refine ⟨_, _, fun st => sub_int _ _, fun st => ?_, rfl⟩
    simp [binOp, Val.isRef, numOp, intOp, intNum]; rfl
  small {d v} h := ⟨d, by rw [h]; rfl, rfl⟩
  mid {l vl d vd} hl hd := by
    subst hl hd
    exact ⟨_, fun st => by rw [binOp_left rfl]; rfl, fun st => by simp only [py]; rfl⟩

end numbers

end Ellalgo.Py
