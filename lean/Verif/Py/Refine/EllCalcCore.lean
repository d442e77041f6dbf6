import Verif.Py.Program

/-!
# The text of `ell_calc_core.py` computes what `Model/Rounded` says

`IsCore A attrs c`: the attributes `attrs` of a Python object are those of an `EllCalcCore` with the constants `c`.
-/

set_option linter.unusedSimpArgs false

namespace Ellalgo.Py

variable {W : Type}

/-- The name of the Python exception. -/
def excOf : Fault → String
  | .assertion => "AssertionError"
  | .valueError => "ValueError"
  | .mathDomain => "ValueError"
  | .zeroDivision => "ZeroDivisionError"
  | .indexError => "IndexError"
  | .typeError => "TypeError"
  | .runtimeError => "RuntimeError"
  | .attributeError => "AttributeError"
  | .oracle => "Exception"

/-- The outcome of a function of the model as an outcome of a Python call that leaves the state as it is. -/
def outcome {α : Type} (f : α → Val) : Except Fault α → M W Val
  | .ok a => M.pure (f a)
  | .error e => M.exc (excOf e)

section
variable {α β : Type} (f : α → Val)
@[py] theorem outcome_ok (a : α) : (outcome f (.ok a) : M W Val) = M.pure (f a) := rfl
@[py] theorem outcome_error (e : Fault) : (outcome f (.error e) : M W Val) = M.exc (excOf e) := rfl
@[py] theorem outcome_ite (c : Prop) [Decidable c] (a b : Except Fault α) :
    (outcome f (if c then a else b) : M W Val) = if c then outcome f a else outcome f b := by split <;> rfl
@[py] theorem except_ok_bind (a : α) (g : α → Except Fault β) : (Except.ok a >>= g) = g a := rfl
@[py] theorem except_error_bind (e : Fault) (g : α → Except Fault β) : (Except.error e >>= g) = .error e := rfl
@[py] theorem except_ite_bind (c : Prop) [Decidable c] (a b : Except Fault α) (g : α → Except Fault β) :
    ((if c then a else b) >>= g) = if c then a >>= g else b >>= g := by split <;> rfl
end

/-- `(rho, sigma, delta)`. -/
def paramsVal (p : Params) : Val := .tuple [.num p.rho, .num p.sigma, .num p.delta]

/-- The literals of `ell_calc_core.py`, `ell_calc.py` and `ell.py` are machine numbers. -/
structure Literals (A : Arith) : Prop where
  zero : A.rnd 0 = 0
  half : A.rnd (1 / 2) = 1 / 2
  one : A.rnd 1 = 1
  two : A.rnd 2 = 2

section
variable {A : Arith} (h : Literals A)
include h
theorem Literals.lit0 : literal A 0 1 false = 0 := by simp [literal, h.zero]
theorem Literals.lit1 : literal A 10 1 false = 1 := by simp [literal, h.one]
theorem Literals.lit2 : literal A 20 1 false = 2 := by
  have e : ((20 : ℕ) : ℝ) / 10 ^ 1 = 2 := by norm_num
  simp only [literal, Bool.false_eq_true, if_false, e, h.two]
theorem Literals.lithalf : literal A 5 1 false = 1 / 2 := by
  have e : ((5 : ℕ) : ℝ) / 10 ^ 1 = 1 / 2 := by norm_num
  simp only [literal, Bool.false_eq_true, if_false, e, h.half]
end

/-- The attributes of an `EllCalcCore`. -/
structure IsCore (A : Arith) (attrs : Env) (c : EllCalcCore) : Prop where
  nF : ∃ v, attrs "_n_f" = some v ∧ v.toFloat A = some c.nF
  halfN : attrs "_half_n" = some (.num c.halfN)
  nPlus1 : attrs "_n_plus_1" = some (.num c.nPlus1)
  invN : attrs "_inv_n" = some (.num c.invN)
  nSq : ∃ v, attrs "_n_sq" = some v ∧ v.toFloat A = some c.nSq
  cst0 : attrs "_cst0" = some (.num c.cst0)
  cst1 : attrs "_cst1" = some (.num c.cst1)
  cst2 : attrs "_cst2" = some (.num c.cst2)
  cst3 : attrs "_cst3" = some (.num c.cst3)
  only : ∀ a ∉ ["_n_f", "_half_n", "_n_plus_1", "_inv_n", "_n_sq", "_cst0", "_cst1", "_cst2", "_cst3"], attrs a = none

/-- A location with an `EllCalcCore`. -/
def CoreAt (A : Arith) (st : St W) (l : ℕ) (c : EllCalcCore) : Prop :=
  l < st.next ∧ ∃ attrs, st.heap l = some (.inst "EllCalcCore" attrs) ∧ IsCore A attrs c

section core

variable {A : Arith} (hA : Literals A) {ext : ℕ → String → List Val → M W Val} {st : St W} {l : ℕ} {c : EllCalcCore} (hc : CoreAt A st l c) (fuel : ℕ)
include hc

theorem core_calc_central_cut (tau : ℝ) :
    call (mach A ext) (fuel + 1) (.meth (.ref l) "calc_central_cut") [.num tau] st = M.pure (paramsVal (A.calcCentralCut c tau)) st := by
  obtain ⟨hlt, attrs, hl, ha⟩ := hc
  rw [call_meth hl method_EllCalcCore_calc_central_cut rfl]
  simp only [Source.EllCalcCore.EllCalcCore.calc_central_cut]
  simp only [py, hl, ha.cst0, ha.cst1, ha.cst2, paramsVal, Arith.calcCentralCut]

include hA

theorem core_calc_bias_cut_fast (beta tau eta : ℝ) :
    call (mach A ext) (fuel + 1) (.meth (.ref l) "calc_bias_cut_fast") [.num beta, .num tau, .num eta] st
      = outcome paramsVal (A.calcBiasCutFast c beta tau eta) st := by
  obtain ⟨hlt, attrs, hl, ha⟩ := hc
  rw [call_meth hl method_EllCalcCore_calc_bias_cut_fast rfl]
  simp only [Source.EllCalcCore.EllCalcCore.calc_bias_cut_fast]
  simp only [py, hl, ha.cst0, ha.cst1, ha.cst2, paramsVal, Arith.calcBiasCutFast, Arith.pdiv, excOf, hA.lit1]

theorem core_calc_bias_cut (beta tau : ℝ) :
    call (mach A ext) (fuel + 2) (.meth (.ref l) "calc_bias_cut") [.num beta, .num tau] st
      = outcome paramsVal (A.coreBiasCut c beta tau) st := by
  obtain ⟨hlt, attrs, hl, ha⟩ := hc
  obtain ⟨v, hv, hn⟩ := ha.nF
  rw [call_meth hl method_EllCalcCore_calc_bias_cut rfl]
  have h1 : attrs "calc_bias_cut_fast" = none := ha.only _ (by decide)
  have := core_calc_bias_cut_fast hA (ext := ext) ⟨hlt, attrs, hl, ha⟩ fuel
  simp only [Source.EllCalcCore.EllCalcCore.calc_bias_cut]
  simp only [py, hl, hv, h1, this, binOp_left hn, Arith.coreBiasCut]

theorem core_calc_parallel_central_cut (beta1 tsq : ℝ) :
    call (mach A ext) (fuel + 2) (.meth (.ref l) "calc_parallel_central_cut") [.num beta1, .num tsq] st
      = outcome paramsVal (A.calcParallelCentralCut c beta1 tsq) st := by
  obtain ⟨hlt, attrs, hl, ha⟩ := hc
  rw [call_meth hl method_EllCalcCore_calc_parallel_central_cut rfl]
  simp only [Source.EllCalcCore.EllCalcCore.calc_parallel_central_cut]
  simp only [py, hl, ha.halfN, ha.invN, paramsVal, Arith.calcParallelCentralCut, Arith.pdiv, Arith.psqrt, excOf, hA.lit1, hA.lit2]

theorem core_calc_parallel_bias_cut_fast (beta0 beta1 tsq b0b1 eta : ℝ) :
    call (mach A ext) (fuel + 2) (.meth (.ref l) "calc_parallel_bias_cut_fast") [.num beta0, .num beta1, .num tsq, .num b0b1, .num eta] st
      = outcome paramsVal (A.calcParallelBiasCutFast c beta0 beta1 tsq b0b1 eta) st := by
  obtain ⟨hlt, attrs, hl, ha⟩ := hc
  obtain ⟨v, hv, hn⟩ := ha.nF
  rw [call_meth hl method_EllCalcCore_calc_parallel_bias_cut_fast rfl]
  simp only [Source.EllCalcCore.EllCalcCore.calc_parallel_bias_cut_fast]
  simp only [py, hl, hv, ha.halfN, ha.cst1, div_right hn, paramsVal, Arith.calcParallelBiasCutFast, Arith.pdiv, Arith.psqrt, excOf, hA.lit2]

theorem core_calc_parallel_bias_cut (beta0 beta1 tsq : ℝ) :
    call (mach A ext) (fuel + 3) (.meth (.ref l) "calc_parallel_bias_cut") [.num beta0, .num beta1, .num tsq] st
      = outcome paramsVal (A.calcParallelBiasCut c beta0 beta1 tsq) st := by
  obtain ⟨hlt, attrs, hl, ha⟩ := hc
  obtain ⟨v, hv, hn⟩ := ha.nF
  have h1 : attrs "calc_parallel_bias_cut_fast" = none := ha.only _ (by decide)
  have := core_calc_parallel_bias_cut_fast hA (ext := ext) ⟨hlt, attrs, hl, ha⟩ fuel
  rw [call_meth hl method_EllCalcCore_calc_parallel_bias_cut rfl]
  simp only [Source.EllCalcCore.EllCalcCore.calc_parallel_bias_cut]
  simp only [py, hl, hv, h1, this, binOp_left hn, Arith.calcParallelBiasCut]

end core

/-- What `EllCalcCore(n)` does for a number `v` with the value `n` whose square `w` is the machine's square of `n`. -/
theorem core_init_of {A : Arith} (hA : Literals A) {ext : ℕ → String → List Val → M W Val} (st : St W) (fuel : ℕ) {v w : Val} {n : ℝ}
    (hv : v.toFloat A = some n) (hw : w.toFloat A = some (A.mul n n)) (hm : ∀ st : St W, binOp A .mul v v st = .ok w st) :
    ∃ attrs, call (mach A ext) (fuel + 1) (.glob "EllCalcCore") [v] st
        = (match A.coreInit n with
          | .ok _ => Res.ok (.ref st.next) (st.alloc (.inst "EllCalcCore" attrs))
          | .error e => Res.exc (excOf e) (st.alloc (.inst "EllCalcCore" attrs)))
      ∧ ∀ c, A.coreInit n = .ok c → IsCore A attrs c := by
  rw [call_class (k := Source.EllCalcCore.EllCalcCore) (f := Source.EllCalcCore.EllCalcCore.__init__) rfl rfl rfl rfl]
  simp only [Source.EllCalcCore.EllCalcCore.__init__]
  by_cases h0 : n = 0
  · subst h0
    simp only [py, hA.lit1, hA.lit2, div_left hv, div_right hv, binOp_left hv, binOp_left hw, hm, Arith.coreInit, Arith.pdiv, excOf]
    exact ⟨_, rfl, nofun⟩
  by_cases h1 : A.add n 1 = 0
  · simp only [py, hA.lit1, hA.lit2, div_left hv, div_right hv, binOp_left hv, binOp_left hw, hm, Arith.coreInit, Arith.pdiv, excOf, h0, h1]
    exact ⟨_, rfl, nofun⟩
  by_cases h2 : A.sub (A.mul n n) 1 = 0
  · simp only [py, hA.lit1, hA.lit2, div_left hv, div_left hw, div_right hv, binOp_left hv, binOp_left hw, hm, Arith.coreInit, Arith.pdiv, excOf, h0, h1, h2]
    exact ⟨_, rfl, nofun⟩
  · simp only [py, hA.lit1, hA.lit2, div_left hv, div_left hw, div_right hv, binOp_left hv, binOp_left hw, hm, Arith.coreInit, Arith.pdiv, excOf, h0, h1, h2]
    refine ⟨_, rfl, ?_⟩
    rintro c ⟨⟩
    refine ⟨⟨v, rfl, hv⟩, rfl, rfl, rfl, ⟨w, rfl, hw⟩, rfl, rfl, rfl, rfl, ?_⟩
    intro a ha
    simp only [List.mem_cons, List.not_mem_nil, or_false, not_or] at ha
    simp only [Env.set, ha, if_false, Env.empty]

/-- `EllCalcCore(n)` for an integer that is a machine number. -/
theorem core_init_int {A : Arith} (hA : Literals A) {ext : ℕ → String → List Val → M W Val} (st : St W) (fuel : ℕ) (n : ℤ) (hn : A.rnd n = n) :
    ∃ attrs, call (mach A ext) (fuel + 1) (.glob "EllCalcCore") [.int n] st
        = (match A.coreInit n with
          | .ok _ => Res.ok (.ref st.next) (st.alloc (.inst "EllCalcCore" attrs))
          | .error e => Res.exc (excOf e) (st.alloc (.inst "EllCalcCore" attrs)))
      ∧ ∀ c, A.coreInit n = .ok c → IsCore A attrs c :=
  core_init_of hA st fuel (by rw [toFloat_int, hn]) (w := .int (n * n)) (by rw [toFloat_int, Int.cast_mul]; rfl) (fun _ => rfl)

/-- `EllCalcCore(x)` for a float. -/
theorem core_init_num {A : Arith} (hA : Literals A) {ext : ℕ → String → List Val → M W Val} (st : St W) (fuel : ℕ) (x : ℝ) :
    ∃ attrs, call (mach A ext) (fuel + 1) (.glob "EllCalcCore") [.num x] st
        = (match A.coreInit x with
          | .ok _ => Res.ok (.ref st.next) (st.alloc (.inst "EllCalcCore" attrs))
          | .error e => Res.exc (excOf e) (st.alloc (.inst "EllCalcCore" attrs)))
      ∧ ∀ c, A.coreInit x = .ok c → IsCore A attrs c :=
  core_init_of hA st fuel rfl (w := .num (A.mul x x)) rfl (fun _ => rfl)

/-! ### The functions that are in `Model/EllCalcCore` only, in exact arithmetic -/

section exactly

theorem literals_exact : Literals Arith.exact := ⟨rfl, rfl, rfl, rfl⟩

theorem exact_rnd (x : ℝ) : Arith.exact.rnd x = x := rfl
theorem exact_add (x y : ℝ) : Arith.exact.add x y = x + y := rfl
theorem exact_sub (x y : ℝ) : Arith.exact.sub x y = x - y := rfl
theorem exact_mul (x y : ℝ) : Arith.exact.mul x y = x * y := rfl
theorem exact_div (x y : ℝ) : Arith.exact.div x y = x / y := rfl

variable {ext : ℕ → String → List Val → M W Val} {st : St W} {l : ℕ} {c : EllCalcCore} (hc : CoreAt Arith.exact st l c) (fuel : ℕ)
include hc

theorem core_calc_parallel_central_cut_old (beta1 tsq : ℝ) :
    call (mach Arith.exact ext) (fuel + 2) (.meth (.ref l) "calc_parallel_central_cut_old") [.num beta1, .num tsq] st
      = outcome paramsVal (c.calcParallelCentralCutOld beta1 tsq) st := by
  obtain ⟨hlt, attrs, hl, ha⟩ := hc
  obtain ⟨v, hv, hn⟩ := ha.nF
  rw [call_meth hl method_EllCalcCore_calc_parallel_central_cut_old rfl]
  simp only [Source.EllCalcCore.EllCalcCore.calc_parallel_central_cut_old]
  simp only [py, hl, hv, ha.halfN, ha.cst1, ha.cst2, ha.cst3, div_right hn, paramsVal, EllCalcCore.calcParallelCentralCutOld, pdiv, psqrt, excOf,
    literals_exact.lit1, literals_exact.lit2, exact_rnd, exact_add, exact_sub, exact_mul, exact_div, sq]

theorem core_calc_parallel_bias_cut_fast2 (beta0 beta1 tsq b0b1 eta : ℝ) :
    call (mach Arith.exact ext) (fuel + 2) (.meth (.ref l) "calc_parallel_bias_cut_fast2") [.num beta0, .num beta1, .num tsq, .num b0b1, .num eta] st
      = outcome paramsVal (c.calcParallelBiasCutFast2 beta0 beta1 tsq b0b1 eta) st := by
  obtain ⟨hlt, attrs, hl, ha⟩ := hc
  obtain ⟨v, hv, hn⟩ := ha.nF
  rw [call_meth hl method_EllCalcCore_calc_parallel_bias_cut_fast2 rfl]
  simp only [Source.EllCalcCore.EllCalcCore.calc_parallel_bias_cut_fast2]
  simp only [py, hl, hv, ha.halfN, ha.cst1, ha.cst2, ha.cst3, div_right hn, paramsVal, EllCalcCore.calcParallelBiasCutFast2, pdiv, psqrt, excOf,
    literals_exact.lit2, exact_rnd, exact_add, exact_sub, exact_mul, exact_div, sq]

theorem core_calc_parallel_bias_cut_old (beta0 beta1 tsq : ℝ) :
    call (mach Arith.exact ext) (fuel + 2) (.meth (.ref l) "calc_parallel_bias_cut_old") [.num beta0, .num beta1, .num tsq] st
      = outcome paramsVal (c.calcParallelBiasCutOld beta0 beta1 tsq) st := by
  obtain ⟨hlt, attrs, hl, ha⟩ := hc
  obtain ⟨v, hv, hn⟩ := ha.nF
  rw [call_meth hl method_EllCalcCore_calc_parallel_bias_cut_old rfl]
  simp only [Source.EllCalcCore.EllCalcCore.calc_parallel_bias_cut_old]
  simp only [py, hl, hv, ha.halfN, ha.cst1, ha.cst2, ha.cst3, div_right hn, paramsVal, EllCalcCore.calcParallelBiasCutOld, pdiv, psqrt, excOf,
    literals_exact.lit2, exact_rnd, exact_add, exact_sub, exact_mul, exact_div, sq]

theorem core_calc_parallel_bias_cut_fast_old (beta0 beta1 tsq b0b1 eta : ℝ) :
    call (mach Arith.exact ext) (fuel + 2) (.meth (.ref l) "calc_parallel_bias_cut_fast_old") [.num beta0, .num beta1, .num tsq, .num b0b1, .num eta] st
      = outcome paramsVal (c.calcParallelBiasCutFastOld beta0 beta1 tsq b0b1 eta) st := by
  have := core_calc_central_cut (ext := ext) hc fuel
  obtain ⟨hlt, attrs, hl, ha⟩ := hc
  obtain ⟨v, hv, hn⟩ := ha.nF
  rw [call_meth hl method_EllCalcCore_calc_parallel_bias_cut_fast_old rfl]
  simp only [Source.EllCalcCore.EllCalcCore.calc_parallel_bias_cut_fast_old]
  have h1 : attrs "calc_central_cut" = none := ha.only _ (by decide)
  have e : (0.5 : ℝ) = 1 / 2 := by norm_num
  simp only [py, hl, hv, h1, this, ha.nPlus1, binOp_left hn, paramsVal, EllCalcCore.calcParallelBiasCutFastOld, pdiv, psqrt, excOf,
    Arith.calcCentralCut, EllCalcCore.calcCentralCut, e,
    literals_exact.lit0, literals_exact.lithalf, exact_rnd, exact_add, exact_sub, exact_mul, exact_div]
  by_cases hg : (1 / 2 * (tsq + b0b1) + c.nF * (1 / 2 * (beta0 + beta1) * (1 / 2 * (beta0 + beta1))))
      * (1 / 2 * (tsq + b0b1) + c.nF * (1 / 2 * (beta0 + beta1) * (1 / 2 * (beta0 + beta1))))
      - c.nPlus1 * eta * (1 / 2 * (beta0 + beta1) * (1 / 2 * (beta0 + beta1))) < 0
  · simp only [hg, if_true]
  · simp only [hg, if_false]

end exactly

/-- The hypotheses of the theorems about methods: `EllCalcCore(2)` on the empty heap. -/
example : ∃ (st : St Unit) (c : EllCalcCore), CoreAt Arith.exact st 0 c ∧ c.nF = 2 ∧ c.cst2 = 2 / 3 := by
  obtain ⟨attrs, -, h⟩ := core_init_int literals_exact (ext := fun _ _ _ => M.stuck) (⟨fun _ => none, 0, ()⟩ : St Unit) 0 2 rfl
  have hc : ∃ c, Arith.exact.coreInit (2 : ℤ) = .ok c ∧ c.nF = 2 ∧ c.cst2 = 2 / 3 := by
    have h3 : (2 : ℝ) + 1 ≠ 0 := by norm_num
    have h4 : (2 : ℝ) * 2 - 1 ≠ 0 := by norm_num
    refine ⟨_, by simp [Arith.coreInit, Arith.pdiv, Arith.exact, Arith.add, Arith.sub, Arith.mul, Arith.div, h3, h4]; rfl, rfl, ?_⟩
    norm_num
  obtain ⟨c, hc, hc'⟩ := hc
  exact ⟨St.alloc ⟨fun _ => none, 0, ()⟩ (.inst "EllCalcCore" attrs), c, ⟨Nat.lt_succ_self _, attrs, rfl, h c hc⟩, hc'⟩

end Ellalgo.Py
