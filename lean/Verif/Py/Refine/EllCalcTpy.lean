import Verif.Py.Refine.Ell1d
import Verif.Py.Source.EllCalcTpy
import Verif.Model.EllCalcTpy

/-!
# The text of `ell_calc.tpy` computes what `Model/EllCalcTpy` says

A program of its own, in exact arithmetic. (A program has one class `EllCalc`; this one is the class of the template.)
-/

set_option linter.unusedSimpArgs false

namespace Ellalgo.Py

variable {W : Type} {ext : ℕ → String → List Val → M W Val} {fuel : ℕ} {st : St W}

/-- The file on its own. -/
def calcTpyProg : Prog := [Source.EllCalcTpy]

/-- A machine that runs it. -/
def tcmach (ext : ℕ → String → List Val → M W Val) : Machine W := ⟨Arith.exact, calcTpyProg, ext⟩

@[py] theorem tcmach_A : (tcmach ext).A = Arith.exact := rfl
@[py] theorem tcmach_prog : (tcmach ext).prog = calcTpyProg := rfl
@[py] theorem tcglobal_sqrt : calcTpyProg.isGlobal "sqrt" = true := rfl
@[py] theorem tcglobal_len : calcTpyProg.isGlobal "len" = true := rfl
@[py] theorem tcglobal_int : calcTpyProg.isGlobal "int" = true := rfl
@[py] theorem tcglobal_float : calcTpyProg.isGlobal "float" = true := rfl
@[py] theorem tcglobal_isinstance : calcTpyProg.isGlobal "isinstance" = true := rfl
@[py] theorem tcglobal_cut : calcTpyProg.isGlobal "CutStatus" = true := rfl
@[py] theorem tccall_sqrt (x : ℝ) : call (tcmach ext) (fuel + 1) (.glob "sqrt") [.num x] st = sqrtOf Arith.exact (.num x) st := by
  rw [call_lib rfl rfl]; rfl
@[py] theorem tccall_len (v : Val) : call (tcmach ext) (fuel + 1) (.glob "len") [v] st = lenOf v st := by
  rw [call_lib rfl rfl]; rfl
@[py] theorem tccall_isinstance (v w : Val) : call (tcmach ext) (fuel + 1) (.glob "isinstance") [v, w] st = builtin Arith.exact "isinstance" [v, w] st := by
  rw [call_lib rfl rfl]; rfl
@[py] theorem tccall_float (n : ℤ) : call (tcmach ext) (fuel + 1) (.glob "float") [.int n] st = .ok (.num n) st := by
  rw [call_lib rfl rfl]; rfl

@[py] theorem lt_none_num (x : ℝ) : cmpOp .lt .none (.num x) st = .exc "TypeError" st := rfl
@[py] theorem lt_none_none : cmpOp .lt .none .none st = .exc "TypeError" st := rfl

@[py] theorem tcmethod_calc_single_or_parallel : calcTpyProg.method? "EllCalc" "calc_single_or_parallel" = some Source.EllCalcTpy.EllCalc.calc_single_or_parallel := rfl
@[py] theorem tcmethodp_calc_single_or_parallel : Source.EllCalcTpy.EllCalc.calc_single_or_parallel.isProperty = false := rfl
@[py] theorem tcmethod_calc_single_or_parallel_central_cut : calcTpyProg.method? "EllCalc" "calc_single_or_parallel_central_cut" = some Source.EllCalcTpy.EllCalc.calc_single_or_parallel_central_cut := rfl
@[py] theorem tcmethodp_calc_single_or_parallel_central_cut : Source.EllCalcTpy.EllCalc.calc_single_or_parallel_central_cut.isProperty = false := rfl
@[py] theorem tcmethod_calc_parallel : calcTpyProg.method? "EllCalc" "calc_parallel" = some Source.EllCalcTpy.EllCalc.calc_parallel := rfl
@[py] theorem tcmethodp_calc_parallel : Source.EllCalcTpy.EllCalc.calc_parallel.isProperty = false := rfl
@[py] theorem tcmethod_calc_parallel_core : calcTpyProg.method? "EllCalc" "calc_parallel_core" = some Source.EllCalcTpy.EllCalc.calc_parallel_core := rfl
@[py] theorem tcmethodp_calc_parallel_core : Source.EllCalcTpy.EllCalc.calc_parallel_core.isProperty = false := rfl
@[py] theorem tcmethod_calc_parallel_central_cut : calcTpyProg.method? "EllCalc" "calc_parallel_central_cut" = some Source.EllCalcTpy.EllCalc.calc_parallel_central_cut := rfl
@[py] theorem tcmethodp_calc_parallel_central_cut : Source.EllCalcTpy.EllCalc.calc_parallel_central_cut.isProperty = false := rfl
@[py] theorem tcmethod_calc_bias_cut : calcTpyProg.method? "EllCalc" "calc_bias_cut" = some Source.EllCalcTpy.EllCalc.calc_bias_cut := rfl
@[py] theorem tcmethodp_calc_bias_cut : Source.EllCalcTpy.EllCalc.calc_bias_cut.isProperty = false := rfl
@[py] theorem tcmethod_calc_bias_cut_core : calcTpyProg.method? "EllCalc" "calc_bias_cut_core" = some Source.EllCalcTpy.EllCalc.calc_bias_cut_core := rfl
@[py] theorem tcmethodp_calc_bias_cut_core : Source.EllCalcTpy.EllCalc.calc_bias_cut_core.isProperty = false := rfl
@[py] theorem tcmethod_calc_central_cut : calcTpyProg.method? "EllCalc" "calc_central_cut" = some Source.EllCalcTpy.EllCalc.calc_central_cut := rfl
@[py] theorem tcmethodp_calc_central_cut : Source.EllCalcTpy.EllCalc.calc_central_cut.isProperty = false := rfl
@[py] theorem tcmethod_calc_single_or_parallel_q : calcTpyProg.method? "EllCalc" "calc_single_or_parallel_q" = some Source.EllCalcTpy.EllCalc.calc_single_or_parallel_q := rfl
@[py] theorem tcmethodp_calc_single_or_parallel_q : Source.EllCalcTpy.EllCalc.calc_single_or_parallel_q.isProperty = false := rfl
@[py] theorem tcmethod_calc_parallel_q : calcTpyProg.method? "EllCalc" "calc_parallel_q" = some Source.EllCalcTpy.EllCalc.calc_parallel_q := rfl
@[py] theorem tcmethodp_calc_parallel_q : Source.EllCalcTpy.EllCalc.calc_parallel_q.isProperty = false := rfl
@[py] theorem tcmethod_calc_bias_cut_q : calcTpyProg.method? "EllCalc" "calc_bias_cut_q" = some Source.EllCalcTpy.EllCalc.calc_bias_cut_q := rfl
@[py] theorem tcmethodp_calc_bias_cut_q : Source.EllCalcTpy.EllCalc.calc_bias_cut_q.isProperty = false := rfl

theorem tc_rnd (x : ℝ) : Arith.exact.rnd x = x := rfl

/-- `(status, rho, sigma, delta)`, with zeros where there are no parameters. -/
def flatVal (r : CutStatus × Option Params) : Val :=
  .tuple [statusVal r.1, .num (match r.2 with | none => 0 | some p => p.rho), .num (match r.2 with | none => 0 | some p => p.sigma),
    .num (match r.2 with | none => 0 | some p => p.delta)]

/-- The attributes of an `EllCalc`. The class attribute `use_parallel_cut` may be overridden by an attribute of the object. -/
structure IsCalcTpy (attrs : Env) (c : EllCalcTpy) : Prop where
  nF : attrs "_n_f" = some (.num c.nF)
  halfN : attrs "_half_n" = some (.num c.halfN)
  cst0 : attrs "_cst0" = some (.num c.cst0)
  cst1 : attrs "_cst1" = some (.num c.cst1)
  cst2 : attrs "_cst2" = some (.num c.cst2)
  cst3 : attrs "_cst3" = some (.num c.cst3)
  parallel : attrs "use_parallel_cut" = some (.bool c.useParallelCut) ∨ attrs "use_parallel_cut" = none ∧ c.useParallelCut = true
  only : ∀ a ∉ ["_n_f", "_half_n", "_cst0", "_cst1", "_cst2", "_cst3", "use_parallel_cut"], attrs a = none

/-- A location with an `EllCalc`. -/
def CalcTpyAt (st : St W) (l : ℕ) (c : EllCalcTpy) : Prop := l < st.next ∧ ∃ attrs, st.heap l = some (.inst "EllCalc" attrs) ∧ IsCalcTpy attrs c

theorem isCalcTpy_parallel {attrs : Env} {c : EllCalcTpy} (h : IsCalcTpy attrs c) (cl : Val → List Val → M W Val) (l : ℕ) (st : St W) :
    member (tcmach ext) cl l "EllCalc" "use_parallel_cut" (attrs "use_parallel_cut") st = .ok (.bool c.useParallelCut) st := by
  rcases h.parallel with h | ⟨h, h'⟩
  · rw [h]; rfl
  · rw [h, h']; rfl

section methods

variable {l : ℕ} {c : EllCalcTpy} (hc : CalcTpyAt st l c)
include hc

theorem tpy_calc_bias_cut_core (beta tau eta : ℝ) :
    call (tcmach ext) (fuel + 2) (.meth (.ref l) "calc_bias_cut_core") [.num beta, .num tau, .num eta] st = outcome flatVal (c.calcBiasCutCore beta tau eta) st := by
  obtain ⟨-, attrs, hl, ha⟩ := hc
  rw [call_meth hl (f := Source.EllCalcTpy.EllCalc.calc_bias_cut_core) rfl rfl]
  simp only [Source.EllCalcTpy.EllCalc.calc_bias_cut_core]
  simp only [py, hl, ha.nF, ha.halfN, ha.cst0, ha.cst1, ha.cst2, ha.cst3, literals_exact.lit0, literals_exact.lit1, literals_exact.lit2, num_sq, exact_add, exact_sub, exact_mul, exact_div, tc_rnd, EllCalcTpy.calcBiasCutCore, pdiv, psqrt, flatVal, statusVal, excOf]

theorem tpy_calc_central_cut (tsq : ℝ) :
    call (tcmach ext) (fuel + 2) (.meth (.ref l) "calc_central_cut") [.num tsq] st = outcome flatVal (c.calcCentralCut tsq) st := by
  obtain ⟨-, attrs, hl, ha⟩ := hc
  rw [call_meth hl (f := Source.EllCalcTpy.EllCalc.calc_central_cut) rfl rfl]
  simp only [Source.EllCalcTpy.EllCalc.calc_central_cut]
  simp only [py, hl, ha.nF, ha.halfN, ha.cst0, ha.cst1, ha.cst2, ha.cst3, literals_exact.lit0, literals_exact.lit1, literals_exact.lit2, num_sq, exact_add, exact_sub, exact_mul, exact_div, tc_rnd, EllCalcTpy.calcCentralCut, pdiv, psqrt, flatVal, statusVal, excOf]

theorem tpy_calc_bias_cut (beta tsq : ℝ) :
    call (tcmach ext) (fuel + 3) (.meth (.ref l) "calc_bias_cut") [.num beta, .num tsq] st = outcome flatVal (c.calcBiasCut beta tsq) st := by
  have h1 := tpy_calc_bias_cut_core (ext := ext) (fuel := fuel) hc
  obtain ⟨-, attrs, hl, ha⟩ := hc
  have h2 : attrs "calc_bias_cut_core" = none := ha.only _ (by decide)
  rw [call_meth hl (f := Source.EllCalcTpy.EllCalc.calc_bias_cut) rfl rfl]
  simp only [Source.EllCalcTpy.EllCalc.calc_bias_cut]
  simp only [py, hl, h1, h2, ha.nF, ha.halfN, ha.cst0, ha.cst1, ha.cst2, ha.cst3, literals_exact.lit0, literals_exact.lit1, literals_exact.lit2, num_sq, exact_add, exact_sub, exact_mul, exact_div, tc_rnd, EllCalcTpy.calcBiasCut, pdiv, psqrt, flatVal, statusVal, excOf]

theorem tpy_calc_parallel_core (beta0 beta1 b1sq b0b1 tsq : ℝ) :
    call (tcmach ext) (fuel + 2) (.meth (.ref l) "calc_parallel_core") [.num beta0, .num beta1, .num b1sq, .num b0b1, .num tsq] st = outcome flatVal (c.calcParallelCore beta0 beta1 b1sq b0b1 tsq) st := by
  obtain ⟨-, attrs, hl, ha⟩ := hc
  rw [call_meth hl (f := Source.EllCalcTpy.EllCalc.calc_parallel_core) rfl rfl]
  simp only [Source.EllCalcTpy.EllCalc.calc_parallel_core]
  simp only [py, hl, ha.nF, ha.halfN, ha.cst0, ha.cst1, ha.cst2, ha.cst3, literals_exact.lit0, literals_exact.lit1, literals_exact.lit2, num_sq, exact_add, exact_sub, exact_mul, exact_div, tc_rnd, EllCalcTpy.calcParallelCore, pdiv, psqrt, flatVal, statusVal, excOf]

theorem tpy_calc_parallel (beta0 beta1 tsq : ℝ) :
    call (tcmach ext) (fuel + 4) (.meth (.ref l) "calc_parallel") [.num beta0, .num beta1, .num tsq] st = outcome flatVal (c.calcParallel beta0 beta1 tsq) st := by
  have h0 := tpy_calc_bias_cut (ext := ext) (fuel := fuel) hc
  have h1 := tpy_calc_parallel_core (ext := ext) (fuel := fuel + 1) hc
  obtain ⟨-, attrs, hl, ha⟩ := hc
  have h2 : attrs "calc_bias_cut" = none := ha.only _ (by decide)
  have h3 : attrs "calc_parallel_core" = none := ha.only _ (by decide)
  rw [call_meth hl (f := Source.EllCalcTpy.EllCalc.calc_parallel) rfl rfl]
  simp only [Source.EllCalcTpy.EllCalc.calc_parallel]
  simp only [py, hl, h0, h1, h2, h3, ha.nF, ha.halfN, ha.cst0, ha.cst1, ha.cst2, ha.cst3, literals_exact.lit0, literals_exact.lit1, literals_exact.lit2, num_sq, exact_add, exact_sub, exact_mul, exact_div, tc_rnd, EllCalcTpy.calcParallel, pdiv, psqrt, flatVal, statusVal, excOf]
  by_cases h4 : beta1 < beta0
  · simp only [h4, if_true]
  simp only [h4, if_false]
  by_cases h5 : beta1 > 0
  · by_cases h6 : tsq < beta1 * beta1
    · simp only [py, h5, h6, and_self, h0]
    · simp only [py, h5, h6, and_false, and_true, h1]
  · simp only [py, h5, false_and, h1]

theorem tpy_calc_bias_cut_q (beta tsq : ℝ) :
    call (tcmach ext) (fuel + 3) (.meth (.ref l) "calc_bias_cut_q") [.num beta, .num tsq] st = outcome flatVal (c.calcBiasCutQ beta tsq) st := by
  have h1 := tpy_calc_bias_cut_core (ext := ext) (fuel := fuel) hc
  obtain ⟨-, attrs, hl, ha⟩ := hc
  have h2 : attrs "calc_bias_cut_core" = none := ha.only _ (by decide)
  rw [call_meth hl (f := Source.EllCalcTpy.EllCalc.calc_bias_cut_q) rfl rfl]
  simp only [Source.EllCalcTpy.EllCalc.calc_bias_cut_q]
  simp only [py, hl, h1, h2, ha.nF, ha.halfN, ha.cst0, ha.cst1, ha.cst2, ha.cst3, literals_exact.lit0, literals_exact.lit1, literals_exact.lit2, num_sq, exact_add, exact_sub, exact_mul, exact_div, tc_rnd, EllCalcTpy.calcBiasCutQ, pdiv, psqrt, flatVal, statusVal, excOf]

theorem tpy_calc_parallel_q (beta0 beta1 tsq : ℝ) :
    call (tcmach ext) (fuel + 4) (.meth (.ref l) "calc_parallel_q") [.num beta0, .num beta1, .num tsq] st = outcome flatVal (c.calcParallelQ beta0 beta1 tsq) st := by
  have h0 := tpy_calc_bias_cut_q (ext := ext) (fuel := fuel) hc
  have h1 := tpy_calc_parallel_core (ext := ext) (fuel := fuel + 1) hc
  obtain ⟨-, attrs, hl, ha⟩ := hc
  have h2 : attrs "calc_bias_cut_q" = none := ha.only _ (by decide)
  have h3 : attrs "calc_parallel_core" = none := ha.only _ (by decide)
  rw [call_meth hl (f := Source.EllCalcTpy.EllCalc.calc_parallel_q) rfl rfl]
  simp only [Source.EllCalcTpy.EllCalc.calc_parallel_q]
  simp only [py, hl, h0, h1, h2, h3, ha.nF, ha.halfN, ha.cst0, ha.cst1, ha.cst2, ha.cst3, literals_exact.lit0, literals_exact.lit1, literals_exact.lit2, num_sq, exact_add, exact_sub, exact_mul, exact_div, tc_rnd, EllCalcTpy.calcParallelQ, pdiv, psqrt, flatVal, statusVal, excOf]
  by_cases h4 : beta1 < beta0
  · simp only [h4, if_true]
  simp only [h4, if_false]
  by_cases h5 : beta1 > 0
  · by_cases h6 : tsq < beta1 * beta1
    · simp only [py, h5, h6, and_self, h0]
    · simp only [py, h5, h6, and_false, and_true, h1]
  · simp only [py, h5, false_and, h1]

theorem tpy_calc_parallel_central_cut (beta1 tsq : ℝ) :
    call (tcmach ext) (fuel + 4) (.meth (.ref l) "calc_parallel_central_cut") [.num beta1, .num tsq] st = outcome flatVal (c.calcParallelCentralCut beta1 tsq) st := by
  have h0 := tpy_calc_central_cut (ext := ext) (fuel := fuel + 1) hc
  obtain ⟨-, attrs, hl, ha⟩ := hc
  have h2 : attrs "calc_central_cut" = none := ha.only _ (by decide)
  have h4 := isCalcTpy_parallel (ext := ext) ha
  rw [call_meth hl (f := Source.EllCalcTpy.EllCalc.calc_parallel_central_cut) rfl rfl]
  simp only [Source.EllCalcTpy.EllCalc.calc_parallel_central_cut]
  simp only [py, hl, h0, h2, h4, ha.nF, ha.halfN, ha.cst0, ha.cst1, ha.cst2, ha.cst3, literals_exact.lit0, literals_exact.lit1, literals_exact.lit2, num_sq, exact_add, exact_sub, exact_mul, exact_div, tc_rnd, EllCalcTpy.calcParallelCentralCut, pdiv, psqrt, flatVal, statusVal, excOf]
  by_cases h5 : beta1 < 0
  · simp only [h5, if_true]
  simp only [h5, if_false]
  by_cases h6 : tsq < beta1 * beta1
  · simp only [py, h6, true_or, h0]
  · cases c.useParallelCut
    · simp only [py, h6, false_or, h0]
    · simp only [py, h6, false_or]

theorem tpy_calc_bias_cut_none (tsq : ℝ) :
    call (tcmach ext) (fuel + 1) (.meth (.ref l) "calc_bias_cut") [.none, .num tsq] st = .exc "TypeError" st := by
  obtain ⟨-, attrs, hl, ha⟩ := hc
  rw [call_meth hl (f := Source.EllCalcTpy.EllCalc.calc_bias_cut) rfl rfl]
  simp only [Source.EllCalcTpy.EllCalc.calc_bias_cut]
  simp only [py, hl, literals_exact.lit0, literals_exact.lit1, literals_exact.lit2, num_sq, exact_add, exact_sub, exact_mul, exact_div, tc_rnd, pdiv, psqrt, flatVal, statusVal, excOf]

theorem tpy_calc_bias_cut_q_none (tsq : ℝ) (h : 0 ≤ tsq) :
    call (tcmach ext) (fuel + 2) (.meth (.ref l) "calc_bias_cut_q") [.none, .num tsq] st = .exc "TypeError" st := by
  obtain ⟨-, attrs, hl, ha⟩ := hc
  rw [call_meth hl (f := Source.EllCalcTpy.EllCalc.calc_bias_cut_q) rfl rfl]
  simp only [Source.EllCalcTpy.EllCalc.calc_bias_cut_q]
  simp only [py, hl, h.not_gt, literals_exact.lit0, literals_exact.lit1, literals_exact.lit2, num_sq, exact_add, exact_sub, exact_mul, exact_div, tc_rnd, pdiv, psqrt, flatVal, statusVal, excOf]

theorem tpy_calc_parallel_none (b1 tsq : ℝ) :
    call (tcmach ext) (fuel + 1) (.meth (.ref l) "calc_parallel") [.none, .num b1, .num tsq] st = .exc "TypeError" st := by
  obtain ⟨-, attrs, hl, ha⟩ := hc
  rw [call_meth hl (f := Source.EllCalcTpy.EllCalc.calc_parallel) rfl rfl]
  simp only [Source.EllCalcTpy.EllCalc.calc_parallel]
  simp only [py, hl, literals_exact.lit0, literals_exact.lit1, literals_exact.lit2, num_sq, exact_add, exact_sub, exact_mul, exact_div, tc_rnd, pdiv, psqrt, flatVal, statusVal, excOf]

theorem tpy_calc_parallel_q_none (b1 tsq : ℝ) :
    call (tcmach ext) (fuel + 1) (.meth (.ref l) "calc_parallel_q") [.none, .num b1, .num tsq] st = .exc "TypeError" st := by
  obtain ⟨-, attrs, hl, ha⟩ := hc
  rw [call_meth hl (f := Source.EllCalcTpy.EllCalc.calc_parallel_q) rfl rfl]
  simp only [Source.EllCalcTpy.EllCalc.calc_parallel_q]
  simp only [py, hl, literals_exact.lit0, literals_exact.lit1, literals_exact.lit2, num_sq, exact_add, exact_sub, exact_mul, exact_div, tc_rnd, pdiv, psqrt, flatVal, statusVal, excOf]

theorem tpy_calc_parallel_none2 (b0 tsq : ℝ) :
    call (tcmach ext) (fuel + 1) (.meth (.ref l) "calc_parallel") [.num b0, .none, .num tsq] st = .exc "TypeError" st := by
  obtain ⟨-, attrs, hl, ha⟩ := hc
  rw [call_meth hl (f := Source.EllCalcTpy.EllCalc.calc_parallel) rfl rfl]
  simp only [Source.EllCalcTpy.EllCalc.calc_parallel]
  simp only [py, hl, literals_exact.lit0, literals_exact.lit1, literals_exact.lit2, num_sq, exact_add, exact_sub, exact_mul, exact_div, tc_rnd, pdiv, psqrt, flatVal, statusVal, excOf]

theorem tpy_calc_parallel_none3 (tsq : ℝ) :
    call (tcmach ext) (fuel + 1) (.meth (.ref l) "calc_parallel") [.none, .none, .num tsq] st = .exc "TypeError" st := by
  obtain ⟨-, attrs, hl, ha⟩ := hc
  rw [call_meth hl (f := Source.EllCalcTpy.EllCalc.calc_parallel) rfl rfl]
  simp only [Source.EllCalcTpy.EllCalc.calc_parallel]
  simp only [py, hl, literals_exact.lit0, literals_exact.lit1, literals_exact.lit2, num_sq, exact_add, exact_sub, exact_mul, exact_div, tc_rnd, pdiv, psqrt, flatVal, statusVal, excOf]

theorem tpy_calc_parallel_q_none2 (b0 tsq : ℝ) :
    call (tcmach ext) (fuel + 1) (.meth (.ref l) "calc_parallel_q") [.num b0, .none, .num tsq] st = .exc "TypeError" st := by
  obtain ⟨-, attrs, hl, ha⟩ := hc
  rw [call_meth hl (f := Source.EllCalcTpy.EllCalc.calc_parallel_q) rfl rfl]
  simp only [Source.EllCalcTpy.EllCalc.calc_parallel_q]
  simp only [py, hl, literals_exact.lit0, literals_exact.lit1, literals_exact.lit2, num_sq, exact_add, exact_sub, exact_mul, exact_div, tc_rnd, pdiv, psqrt, flatVal, statusVal, excOf]

theorem tpy_calc_parallel_q_none3 (tsq : ℝ) :
    call (tcmach ext) (fuel + 1) (.meth (.ref l) "calc_parallel_q") [.none, .none, .num tsq] st = .exc "TypeError" st := by
  obtain ⟨-, attrs, hl, ha⟩ := hc
  rw [call_meth hl (f := Source.EllCalcTpy.EllCalc.calc_parallel_q) rfl rfl]
  simp only [Source.EllCalcTpy.EllCalc.calc_parallel_q]
  simp only [py, hl, literals_exact.lit0, literals_exact.lit1, literals_exact.lit2, num_sq, exact_add, exact_sub, exact_mul, exact_div, tc_rnd, pdiv, psqrt, flatVal, statusVal, excOf]

theorem tpy_calc_parallel_central_cut_none (tsq : ℝ) :
    call (tcmach ext) (fuel + 1) (.meth (.ref l) "calc_parallel_central_cut") [.none, .num tsq] st = .exc "TypeError" st := by
  obtain ⟨-, attrs, hl, ha⟩ := hc
  rw [call_meth hl (f := Source.EllCalcTpy.EllCalc.calc_parallel_central_cut) rfl rfl]
  simp only [Source.EllCalcTpy.EllCalc.calc_parallel_central_cut]
  simp only [py, hl, literals_exact.lit0, literals_exact.lit1, literals_exact.lit2, num_sq, exact_add, exact_sub, exact_mul, exact_div, tc_rnd, pdiv, psqrt, flatVal, statusVal, excOf]

theorem tpy_calc_single_or_parallel {beta : CutChoice} {v : Val} (hb : IsBeta st beta v) (tsq : ℝ) :
    call (tcmach ext) (fuel + 5) (.meth (.ref l) "calc_single_or_parallel") [v, .num tsq] st = outcome flatVal (c.calcSingleOrParallel beta tsq) st := by
  have h0 := tpy_calc_bias_cut (ext := ext) (fuel := fuel + 1) hc
  have h1 := tpy_calc_parallel (ext := ext) (fuel := fuel) hc
  have h5 := tpy_calc_bias_cut_none (ext := ext) (fuel := fuel + 3) hc
  have h6 := tpy_calc_parallel_none (ext := ext) (fuel := fuel + 3) hc
  have h7 := tpy_calc_parallel_none2 (ext := ext) (fuel := fuel + 3) hc
  have h8 := tpy_calc_parallel_none3 (ext := ext) (fuel := fuel + 3) hc
  obtain ⟨-, attrs, hl, ha⟩ := hc
  have h2 : attrs "calc_bias_cut" = none := ha.only _ (by decide)
  have h3 : attrs "calc_parallel" = none := ha.only _ (by decide)
  have h4 := isCalcTpy_parallel (ext := ext) ha
  rw [call_meth hl (f := Source.EllCalcTpy.EllCalc.calc_single_or_parallel) rfl rfl]
  simp only [Source.EllCalcTpy.EllCalc.calc_single_or_parallel]
  rcases hb.cases' Arith.exact with ⟨b, rfl, rfl⟩ | ⟨bs, rfl, hs⟩
  · simp only [py, hl, h0, h2, EllCalcTpy.calcSingleOrParallel]
  rcases bs with _ | ⟨_ | b0, _ | ⟨b1, bs⟩⟩
  · simp only [py, hl, h2, h4, hs.number, hs.len, hs.nil rfl, EllCalcTpy.calcSingleOrParallel, List.length_nil, zero_lt_two, true_or, EllCalc.firstOffset, EllCalcTpy.twoOffsets, offsetVal, excOf]
  · simp only [py, hl, h2, h4, h5, hs.number, hs.len, hs.zero _ _ rfl, EllCalcTpy.calcSingleOrParallel, List.length_singleton, one_lt_two, true_or, EllCalc.firstOffset, EllCalcTpy.twoOffsets, offsetVal, excOf]
  · simp only [py, hl, h2, h3, h4, h5, hs.number, hs.len, hs.zero _ _ rfl, hs.one _ _ _ rfl, EllCalcTpy.calcSingleOrParallel, long_seq, long_seq', false_or, EllCalc.firstOffset, EllCalcTpy.twoOffsets, offsetVal, excOf]
    cases c.useParallelCut
    · simp only [py, offsetVal]
    · rcases b1 with _ | b1
      · simp only [py, offsetVal, EllCalcTpy.twoOffsets, excOf, h8]
      · simp only [py, offsetVal, EllCalcTpy.twoOffsets, excOf, h6]
  · simp only [py, hl, h0, h2, h4, hs.number, hs.len, hs.zero _ _ rfl, EllCalcTpy.calcSingleOrParallel, List.length_singleton, one_lt_two, true_or, EllCalc.firstOffset, EllCalcTpy.twoOffsets, offsetVal, excOf]
  · simp only [py, hl, h0, h2, h3, h4, hs.number, hs.len, hs.zero _ _ rfl, hs.one _ _ _ rfl, EllCalcTpy.calcSingleOrParallel, long_seq, long_seq', false_or, EllCalc.firstOffset, EllCalcTpy.twoOffsets, offsetVal, excOf]
    cases c.useParallelCut
    · simp only [py, offsetVal]
    · rcases b1 with _ | b1
      · simp only [py, offsetVal, EllCalcTpy.twoOffsets, excOf, h7]
      · simp only [py, offsetVal, EllCalcTpy.twoOffsets, excOf, h1]

theorem tpy_calc_single_or_parallel_q {beta : CutChoice} {v : Val} (hb : IsBeta st beta v) (tsq : ℝ) (ht : 0 ≤ tsq ∨ ∀ bs, beta ≠ .seq (none :: bs)) :
    call (tcmach ext) (fuel + 5) (.meth (.ref l) "calc_single_or_parallel_q") [v, .num tsq] st = outcome flatVal (c.calcSingleOrParallelQ beta tsq) st := by
  have h0 := tpy_calc_bias_cut_q (ext := ext) (fuel := fuel + 1) hc
  have h1 := tpy_calc_parallel_q (ext := ext) (fuel := fuel) hc
  have h5 := tpy_calc_bias_cut_q_none (ext := ext) (fuel := fuel + 2) hc
  have h6 := tpy_calc_parallel_q_none (ext := ext) (fuel := fuel + 3) hc
  have h7 := tpy_calc_parallel_q_none2 (ext := ext) (fuel := fuel + 3) hc
  have h8 := tpy_calc_parallel_q_none3 (ext := ext) (fuel := fuel + 3) hc
  obtain ⟨-, attrs, hl, ha⟩ := hc
  have h2 : attrs "calc_bias_cut_q" = none := ha.only _ (by decide)
  have h3 : attrs "calc_parallel_q" = none := ha.only _ (by decide)
  have h4 := isCalcTpy_parallel (ext := ext) ha
  rw [call_meth hl (f := Source.EllCalcTpy.EllCalc.calc_single_or_parallel_q) rfl rfl]
  simp only [Source.EllCalcTpy.EllCalc.calc_single_or_parallel_q]
  rcases hb.cases' Arith.exact with ⟨b, rfl, rfl⟩ | ⟨bs, rfl, hs⟩
  · simp only [py, hl, h0, h2, EllCalcTpy.calcSingleOrParallelQ]
  rcases bs with _ | ⟨_ | b0, _ | ⟨b1, bs⟩⟩
  · simp only [py, hl, h2, h4, hs.number, hs.len, hs.nil rfl, EllCalcTpy.calcSingleOrParallelQ, List.length_nil, zero_lt_two, true_or, EllCalc.firstOffset, EllCalcTpy.twoOffsets, offsetVal, excOf]
  · have ht := ht.resolve_right fun h => h _ rfl
    simp only [py, hl, h2, h4, h5 _ ht, hs.number, hs.len, hs.zero _ _ rfl, EllCalcTpy.calcSingleOrParallelQ, List.length_singleton, one_lt_two, true_or, EllCalc.firstOffset, EllCalcTpy.twoOffsets, offsetVal, excOf]
  · have ht := ht.resolve_right fun h => h _ rfl
    simp only [py, hl, h2, h3, h4, h5 _ ht, hs.number, hs.len, hs.zero _ _ rfl, hs.one _ _ _ rfl, EllCalcTpy.calcSingleOrParallelQ, long_seq, long_seq', false_or, EllCalc.firstOffset, EllCalcTpy.twoOffsets, offsetVal, excOf]
    cases c.useParallelCut
    · simp only [py, offsetVal]
    · rcases b1 with _ | b1
      · simp only [py, offsetVal, EllCalcTpy.twoOffsets, excOf, h8]
      · simp only [py, offsetVal, EllCalcTpy.twoOffsets, excOf, h6]
  · simp only [py, hl, h0, h2, h4, hs.number, hs.len, hs.zero _ _ rfl, EllCalcTpy.calcSingleOrParallelQ, List.length_singleton, one_lt_two, true_or, EllCalc.firstOffset, EllCalcTpy.twoOffsets, offsetVal, excOf]
  · simp only [py, hl, h0, h2, h3, h4, hs.number, hs.len, hs.zero _ _ rfl, hs.one _ _ _ rfl, EllCalcTpy.calcSingleOrParallelQ, long_seq, long_seq', false_or, EllCalc.firstOffset, EllCalcTpy.twoOffsets, offsetVal, excOf]
    cases c.useParallelCut
    · simp only [py, offsetVal]
    · rcases b1 with _ | b1
      · simp only [py, offsetVal, EllCalcTpy.twoOffsets, excOf, h7]
      · simp only [py, offsetVal, EllCalcTpy.twoOffsets, excOf, h1]

theorem tpy_calc_single_or_parallel_central_cut {beta : CutChoice} {v : Val} (hb : IsBeta st beta v) (tsq : ℝ) :
    call (tcmach ext) (fuel + 5) (.meth (.ref l) "calc_single_or_parallel_central_cut") [v, .num tsq] st = outcome flatVal (c.calcSingleOrParallelCentralCut beta tsq) st := by
  have h0 := tpy_calc_central_cut (ext := ext) (fuel := fuel + 2) hc
  have h1 := tpy_calc_parallel_central_cut (ext := ext) (fuel := fuel) hc
  have h5 := tpy_calc_parallel_central_cut_none (ext := ext) (fuel := fuel + 3) hc
  obtain ⟨-, attrs, hl, ha⟩ := hc
  have h2 : attrs "calc_central_cut" = none := ha.only _ (by decide)
  have h3 : attrs "calc_parallel_central_cut" = none := ha.only _ (by decide)
  have h4 := isCalcTpy_parallel (ext := ext) ha
  rw [call_meth hl (f := Source.EllCalcTpy.EllCalc.calc_single_or_parallel_central_cut) rfl rfl]
  simp only [Source.EllCalcTpy.EllCalc.calc_single_or_parallel_central_cut]
  rcases hb.cases' Arith.exact with ⟨b, rfl, rfl⟩ | ⟨bs, rfl, hs⟩
  · simp only [py, hl, h0, h2, EllCalcTpy.calcSingleOrParallelCentralCut]
  rcases bs with _ | ⟨b0, _ | ⟨b1, bs⟩⟩
  · simp only [py, hl, h0, h2, h4, hs.number, hs.len, EllCalcTpy.calcSingleOrParallelCentralCut, List.length_nil, zero_lt_two, true_or]
  · simp only [py, hl, h0, h2, h4, hs.number, hs.len, EllCalcTpy.calcSingleOrParallelCentralCut, List.length_singleton, one_lt_two, true_or]
  · simp only [py, hl, h0, h2, h3, h4, hs.number, hs.len, hs.one _ _ _ rfl, EllCalcTpy.calcSingleOrParallelCentralCut, long_seq, long_seq', false_or]
    cases c.useParallelCut
    · simp only [py, h0]
    · rcases b1 with _ | b1
      · simp only [py, offsetVal, List.getElem?_cons_succ, List.getElem?_cons_zero, excOf, h5]
      · simp only [py, offsetVal, List.getElem?_cons_succ, List.getElem?_cons_zero, excOf, h1]

end methods

/-- `EllCalc(n)`. -/
theorem tpy_init (st : St W) (n : ℤ) :
    ∃ st', call (tcmach ext) (fuel + 2) (.glob "EllCalc") [.int n] st
        = (match EllCalcTpy.init n with | .ok _ => Res.ok (.ref st.next) st' | .error e => Res.exc (excOf e) st')
      ∧ Frame (fun _ => False) st st' ∧ ∀ c, EllCalcTpy.init n = .ok c → CalcTpyAt st' st.next c := by
  rw [call_class (k := Source.EllCalcTpy.EllCalc) (f := Source.EllCalcTpy.EllCalc.__init__) rfl rfl rfl rfl]
  simp only [Source.EllCalcTpy.EllCalc.__init__]
  have h2 : ¬ (2 : ℝ) = 0 := two_ne_zero
  by_cases h0 : (n : ℝ) + 1 = 0
  · simp only [py, h0, h2, literals_exact.lit1, literals_exact.lit2, exact_add, exact_sub, exact_mul, exact_div, num_sq, EllCalcTpy.init, pdiv, excOf]
    exact ⟨_, rfl, by repeat first | exact (Frame.refl _ _).alloc _ | refine Frame.put ?_ _ (.inr le_rfl), nofun⟩
  by_cases h1 : (n : ℝ) ^ 2 - 1 = 0
  · simp only [py, h0, h1, h2, literals_exact.lit1, literals_exact.lit2, exact_add, exact_sub, exact_mul, exact_div, num_sq, EllCalcTpy.init, pdiv, excOf]
    exact ⟨_, rfl, by repeat first | exact (Frame.refl _ _).alloc _ | refine Frame.put ?_ _ (.inr le_rfl), nofun⟩
  · simp only [py, h0, h1, h2, literals_exact.lit1, literals_exact.lit2, exact_add, exact_sub, exact_mul, exact_div, num_sq, EllCalcTpy.init, pdiv, excOf]
    refine ⟨_, rfl, by repeat first | exact (Frame.refl _ _).alloc _ | refine Frame.put ?_ _ (.inr le_rfl), ?_⟩
    rintro _ ⟨⟩
    refine ⟨by simp only [py]; omega, _, by simp only [py]; rfl, rfl, rfl, rfl, rfl, rfl, rfl, .inr ⟨rfl, rfl⟩, ?_⟩
    intro a ha
    simp only [List.mem_cons, List.not_mem_nil, or_false, not_or] at ha
    simp only [Env.set, ha, if_false, Env.empty]

end Ellalgo.Py
