import Verif.Py.Refine.EllCalcCore

/-!
# The text of `ell_calc.py` computes what `Model/Rounded` says
-/

set_option linter.unusedSimpArgs false

namespace Ellalgo.Py

variable {W : Type}

/-- Members of `CutStatus`. -/
def statusVal : CutStatus → Val
  | .success => .glob "CutStatus.Success"
  | .noSoln => .glob "CutStatus.NoSoln"
  | .noEffect => .glob "CutStatus.NoEffect"
  | .unknown => .glob "CutStatus.Unknown"

/-- `(status, result)`. -/
def strategyVal (r : CutStatus × Option Params) : Val :=
  .tuple [statusVal r.1, match r.2 with | none => .none | some p => paramsVal p]

/-- An entry of a sequence of offsets. -/
def offsetVal : Option ℝ → Val
  | none => .none
  | some b => .num b

/-- An offset: a float, or a tuple or a list of floats and `None`, or an array. -/
inductive IsBeta (st : St W) : CutChoice → Val → Prop
  | scalar (b : ℝ) : IsBeta st (.scalar b) (.num b)
  | tuple (bs : List (Option ℝ)) : IsBeta st (.seq bs) (.tuple (bs.map offsetVal))
  | list (bs : List (Option ℝ)) : IsBeta st (.seq bs) (.list (bs.map offsetVal))
  | array (l n : ℕ) (x : Fin n → ℝ) (h : st.heap l = some (.vec n x)) (hl : l < st.next) : IsBeta st (.seq (List.ofFn fun i => some (x i))) (.ref l)

/-- What the functions of `ell_calc.py` do with a sequence of offsets. -/
structure IsSeq (A : Arith) (st : St W) (bs : List (Option ℝ)) (v : Val) : Prop where
  number : builtin A "isinstance" [v, .tuple [.glob "int", .glob "float"]] st = .ok (.bool false) st
  len : lenOf v st = .ok (.int bs.length) st
  nil : bs = [] → getItem v [.pos 0] st = .exc "IndexError" st
  zero : ∀ b bs', bs = b :: bs' → getItem v [.pos 0] st = .ok (offsetVal b) st
  one : ∀ b b' bs', bs = b :: b' :: bs' → getItem v [.pos 1] st = .ok (offsetVal b') st

theorem IsBeta.cases' (A : Arith) {st : St W} {beta : CutChoice} {v : Val} (h : IsBeta st beta v) :
    (∃ b, beta = .scalar b ∧ v = .num b) ∨ ∃ bs, beta = .seq bs ∧ IsSeq A st bs v := by
  cases h with
  | scalar b => exact .inl ⟨b, rfl, rfl⟩
  | tuple bs =>
    refine .inr ⟨bs, rfl, rfl, ?_, ?_, ?_, ?_⟩
    · simp [py]
    · rintro rfl; rfl
    · rintro b bs' rfl; simp only [List.map, py]
    · rintro b b' bs' rfl; simp only [List.map, py]
  | list bs =>
    refine .inr ⟨bs, rfl, rfl, ?_, ?_, ?_, ?_⟩
    · simp [py]
    · rintro rfl; rfl
    · rintro b bs' rfl; simp only [List.map, py]
    · rintro b b' bs' rfl; simp only [List.map, py]
  | array l n x h hl =>
    refine .inr ⟨_, rfl, rfl, ?_, ?_, ?_, ?_⟩
    · simp only [lenOf, py, h, List.length_ofFn]
    · intro h0
      obtain rfl : n = 0 := by simpa using h0
      simp only [getItem, py, h]; rfl
    · intro b bs' h0
      obtain ⟨n, rfl⟩ : ∃ m, n = m + 1 := ⟨n - 1, by have := congrArg List.length h0; simp at this; omega⟩
      rw [List.ofFn_succ] at h0
      obtain ⟨rfl, -⟩ := List.cons.inj h0
      simp only [getItem, py, h, normIdx_zero, orIndexError, at1, Nat.zero_lt_succ, dite_true, offsetVal]; rfl
    · intro b b' bs' h0
      obtain ⟨n, rfl⟩ : ∃ m, n = m + 2 := ⟨n - 2, by have := congrArg List.length h0; simp at this; omega⟩
      rw [List.ofFn_succ, List.ofFn_succ] at h0
      obtain ⟨-, h0⟩ := List.cons.inj h0
      obtain ⟨rfl, -⟩ := List.cons.inj h0
      simp only [getItem, py, h, normIdx_one, orIndexError, at1, offsetVal]; simp

theorem long_seq {α : Type} (b b' : α) (bs : List α) : ((((b :: b' :: bs).length : ℕ) : ℤ) < 2) = False := by simp only [List.length_cons, eq_iff_iff, iff_false]; omega
theorem long_seq' {α : Type} (b b' : α) (bs : List α) : (((b :: b' :: bs).length : ℕ) < 2) = False := by simp

/-- The attributes of an `EllCalc`. The class attribute `use_parallel_cut` may be overridden by an attribute of the object. -/
structure IsCalc (attrs : Env) (c : EllCalc) (lh : ℕ) : Prop where
  nF : attrs "_n_f" = some (.num c.nF)
  helper : attrs "helper" = some (.ref lh)
  parallel : attrs "use_parallel_cut" = some (.bool c.useParallelCut) ∨ attrs "use_parallel_cut" = none ∧ c.useParallelCut = true
  only : ∀ a ∉ ["_n_f", "helper", "use_parallel_cut"], attrs a = none

/-- A location with an `EllCalc`. -/
def CalcAt (A : Arith) (st : St W) (l : ℕ) (c : EllCalc) : Prop :=
  l < st.next ∧ ∃ attrs lh, st.heap l = some (.inst "EllCalc" attrs) ∧ IsCalc attrs c lh ∧ CoreAt A st lh c.helper

theorem outcome_bind {α : Type} (f : α → Val) (e : Except Fault α) (g : Val → M W Val) (st : St W) :
    (outcome f e st).bind g = match e with | .ok a => g (f a) st | .error x => .exc (excOf x) st := by
  cases e <;> rfl

theorem isCalc_parallel {A : Arith} {ext : ℕ → String → List Val → M W Val} {attrs : Env} {c : EllCalc} {lh : ℕ} (h : IsCalc attrs c lh)
    (cl : Val → List Val → M W Val) (l : ℕ) (st : St W) :
    member (mach A ext) cl l "EllCalc" "use_parallel_cut" (attrs "use_parallel_cut") st = .ok (.bool c.useParallelCut) st := by
  rcases h.parallel with h | ⟨h, h'⟩
  · rw [h]; rfl
  · rw [h, h']; rfl

section methods

variable {A : Arith} (hA : Literals A) {ext : ℕ → String → List Val → M W Val} {st : St W} {l : ℕ} {c : EllCalc} (hc : CalcAt A st l c) (fuel : ℕ)
include hA hc

theorem calc_calc_bias_cut (beta tsq : ℝ) :
    call (mach A ext) (fuel + 3) (.meth (.ref l) "calc_bias_cut") [.num beta, .num tsq] st
      = outcome strategyVal (A.calcBiasCut c beta tsq) st := by
  obtain ⟨-, attrs, lh, hl, ha, hh⟩ := hc
  have h1 := core_calc_bias_cut hA (ext := ext) hh fuel
  obtain ⟨-, attrs', hl', ha'⟩ := hh
  have h2 : attrs' "calc_bias_cut" = none := ha'.only _ (by decide)
  rw [call_meth hl method_EllCalc_calc_bias_cut rfl]
  simp only [Source.EllCalc.EllCalc.calc_bias_cut]
  simp only [py, hl, hl', h1, h2, ha.helper, hA.lit0, Arith.calcBiasCut, Arith.psqrt, strategyVal, statusVal, excOf]
  split_ifs <;> first | rfl | (cases A.coreBiasCut c.helper beta (A.rnd √tsq) <;> rfl)

theorem calc_calc_parallel (beta0 beta1 tsq : ℝ) :
    call (mach A ext) (fuel + 4) (.meth (.ref l) "calc_parallel") [.num beta0, .num beta1, .num tsq] st
      = outcome strategyVal (A.calcParallel c beta0 beta1 tsq) st := by
  have h0 := calc_calc_bias_cut hA (ext := ext) hc fuel
  obtain ⟨-, attrs, lh, hl, ha, hh⟩ := hc
  have h1 := core_calc_parallel_bias_cut hA (ext := ext) hh fuel
  obtain ⟨-, attrs', hl', ha'⟩ := hh
  have h2 : attrs' "calc_parallel_bias_cut" = none := ha'.only _ (by decide)
  have h3 : attrs "calc_bias_cut" = none := ha.only _ (by decide)
  rw [call_meth hl method_EllCalc_calc_parallel rfl]
  simp only [Source.EllCalc.EllCalc.calc_parallel]
  simp only [py, hl, hl', h0, h1, h2, h3, ha.helper, hA.lit0, Arith.calcParallel, strategyVal, statusVal, excOf]
  by_cases h4 : beta1 < beta0
  · simp only [h4, if_true]
  simp only [h4, if_false]
  by_cases h5 : beta1 > 0
  · by_cases h6 : tsq ≤ A.mul beta1 beta1
    · simp only [py, h5, h6, and_self, h0]
    · simp only [py, h5, h6, and_false, and_true, h1, outcome_bind]
      cases A.calcParallelBiasCut c.helper beta0 beta1 tsq <;> rfl
  · simp only [py, h5, false_and, h1, outcome_bind]
    cases A.calcParallelBiasCut c.helper beta0 beta1 tsq <;> rfl

theorem calc_calc_bias_cut_q (beta tsq : ℝ) :
    call (mach A ext) (fuel + 2) (.meth (.ref l) "calc_bias_cut_q") [.num beta, .num tsq] st
      = outcome strategyVal (A.calcBiasCutQ c beta tsq) st := by
  obtain ⟨-, attrs, lh, hl, ha, hh⟩ := hc
  have h1 := core_calc_bias_cut_fast hA (ext := ext) hh fuel
  obtain ⟨-, attrs', hl', ha'⟩ := hh
  have h2 : attrs' "calc_bias_cut_fast" = none := ha'.only _ (by decide)
  rw [call_meth hl method_EllCalc_calc_bias_cut_q rfl]
  simp only [Source.EllCalc.EllCalc.calc_bias_cut_q]
  simp only [py, hl, hl', h1, h2, ha.helper, ha.nF, hA.lit0, Arith.calcBiasCutQ, Arith.psqrt, strategyVal, statusVal, excOf]
  split_ifs <;> first | rfl | (cases A.calcBiasCutFast c.helper beta (A.rnd √tsq) (A.add (A.rnd √tsq) (A.mul c.nF beta)) <;> rfl)

theorem calc_calc_parallel_q (beta0 beta1 tsq : ℝ) :
    call (mach A ext) (fuel + 3) (.meth (.ref l) "calc_parallel_q") [.num beta0, .num beta1, .num tsq] st
      = outcome strategyVal (A.calcParallelQ c beta0 beta1 tsq) st := by
  have h0 := calc_calc_bias_cut_q hA (ext := ext) hc fuel
  obtain ⟨-, attrs, lh, hl, ha, hh⟩ := hc
  have h1 := core_calc_parallel_bias_cut_fast hA (ext := ext) hh fuel
  obtain ⟨-, attrs', hl', ha'⟩ := hh
  have h2 : attrs' "calc_parallel_bias_cut_fast" = none := ha'.only _ (by decide)
  have h3 : attrs "calc_bias_cut_q" = none := ha.only _ (by decide)
  rw [call_meth hl method_EllCalc_calc_parallel_q rfl]
  simp only [Source.EllCalc.EllCalc.calc_parallel_q]
  simp only [py, hl, hl', h0, h1, h2, h3, ha.helper, ha.nF, hA.lit0, Arith.calcParallelQ, strategyVal, statusVal, excOf]
  generalize A.calcBiasCutQ c beta0 tsq = r
  generalize A.calcParallelBiasCutFast c.helper beta0 beta1 tsq (A.mul beta0 beta1) (A.add tsq (A.mul c.nF (A.mul beta0 beta1))) = s
  by_cases h4 : beta1 < beta0
  · simp only [h4, if_true]
  simp only [h4, if_false]
  by_cases h5 : beta1 > 0
  · by_cases h6 : tsq ≤ A.mul beta1 beta1
    · simp only [py, h5, h6, and_self]
    · simp only [py, h5, h6, and_false, and_true]
      split_ifs <;> first | rfl | (cases s <;> rfl)
  · simp only [py, h5, false_and]
    split_ifs <;> first | rfl | (cases s <;> rfl)

omit hA in
theorem calc_calc_bias_cut_none (tsq : ℝ) :
    call (mach A ext) (fuel + 1) (.meth (.ref l) "calc_bias_cut") [.none, .num tsq] st = .exc "TypeError" st := by
  obtain ⟨-, attrs, lh, hl, ha, hh⟩ := hc
  rw [call_meth hl method_EllCalc_calc_bias_cut rfl]
  simp only [Source.EllCalc.EllCalc.calc_bias_cut]
  simp only [py]

omit hA in
theorem calc_calc_bias_cut_q_none (tsq : ℝ) (h : 0 ≤ tsq) :
    call (mach A ext) (fuel + 1 + 1) (.meth (.ref l) "calc_bias_cut_q") [.none, .num tsq] st = .exc "TypeError" st := by
  obtain ⟨-, attrs, lh, hl, ha, hh⟩ := hc
  rw [call_meth hl method_EllCalc_calc_bias_cut_q rfl]
  simp only [Source.EllCalc.EllCalc.calc_bias_cut_q]
  simp only [py, h.not_gt]

omit hA in
theorem calc_calc_parallel_none (b1 tsq : ℝ) :
    call (mach A ext) (fuel + 1) (.meth (.ref l) "calc_parallel") [.none, .num b1, .num tsq] st = .exc "TypeError" st := by
  obtain ⟨-, attrs, lh, hl, ha, hh⟩ := hc
  rw [call_meth hl method_EllCalc_calc_parallel rfl]
  simp only [Source.EllCalc.EllCalc.calc_parallel]
  simp only [py]

omit hA in
theorem calc_calc_parallel_q_none (b1 tsq : ℝ) :
    call (mach A ext) (fuel + 1) (.meth (.ref l) "calc_parallel_q") [.none, .num b1, .num tsq] st = .exc "TypeError" st := by
  obtain ⟨-, attrs, lh, hl, ha, hh⟩ := hc
  rw [call_meth hl method_EllCalc_calc_parallel_q rfl]
  simp only [Source.EllCalc.EllCalc.calc_parallel_q]
  simp only [py]

theorem calc_calc_single_or_parallel {beta : CutChoice} {v : Val} (hb : IsBeta st beta v) (tsq : ℝ) :
    call (mach A ext) (fuel + 5) (.meth (.ref l) "calc_single_or_parallel") [v, .num tsq] st
      = outcome strategyVal (A.calcSingleOrParallel c beta tsq) st := by
  have h0 := calc_calc_bias_cut hA (ext := ext) hc (fuel + 1)
  have h1 := calc_calc_parallel hA (ext := ext) hc (fuel + 0)
  have h5 := calc_calc_bias_cut_none (A := A) (ext := ext) hc (fuel + 3)
  have h6 := calc_calc_parallel_none (A := A) (ext := ext) hc (fuel + 3)
  obtain ⟨-, attrs, lh, hl, ha, hh⟩ := hc
  have h2 : attrs "calc_bias_cut" = none := ha.only _ (by decide)
  have h3 : attrs "calc_parallel" = none := ha.only _ (by decide)
  have h4 := isCalc_parallel (A := A) (ext := ext) ha
  rw [call_meth hl method_EllCalc_calc_single_or_parallel rfl]
  simp only [Source.EllCalc.EllCalc.calc_single_or_parallel]
  rcases hb.cases' A with ⟨b, rfl, rfl⟩ | ⟨bs, rfl, hs⟩
  · simp only [py, hl, h0, h2, Arith.calcSingleOrParallel]
  rcases bs with _ | ⟨_ | b0, _ | ⟨b1, bs⟩⟩
  · simp only [py, hl, h2, h4, hs.number, hs.len, hs.nil rfl, Arith.calcSingleOrParallel, List.length_nil, zero_lt_two, true_or,
      EllCalc.firstOffset, excOf]
  · simp only [py, hl, h2, h4, h5, hs.number, hs.len, hs.zero _ _ rfl, offsetVal, Arith.calcSingleOrParallel, List.length_singleton, one_lt_two, true_or,
      EllCalc.firstOffset, excOf]
  · simp only [py, hl, h2, h3, h4, h5, hs.number, hs.len, hs.zero _ _ rfl, hs.one _ _ _ rfl, Arith.calcSingleOrParallel, long_seq, long_seq', false_or,
      EllCalc.firstOffset, offsetVal, excOf]
    cases c.useParallelCut
    · simp only [py, offsetVal]
    · rcases b1 with _ | b1
      · simp only [py, offsetVal, List.getElem?_cons_succ, List.getElem?_cons_zero, excOf]
      · simp only [py, offsetVal, List.getElem?_cons_succ, List.getElem?_cons_zero, excOf, h6]
  · simp only [py, hl, h0, h2, h4, hs.number, hs.len, hs.zero _ _ rfl, offsetVal, Arith.calcSingleOrParallel, List.length_singleton, one_lt_two, true_or,
      EllCalc.firstOffset, excOf]
  · simp only [py, hl, h0, h2, h3, h4, hs.number, hs.len, hs.zero _ _ rfl, hs.one _ _ _ rfl, Arith.calcSingleOrParallel, long_seq, long_seq', false_or,
      EllCalc.firstOffset, offsetVal, excOf]
    cases c.useParallelCut
    · simp only [py, offsetVal]
    · rcases b1 with _ | b1
      · simp only [py, offsetVal, List.getElem?_cons_succ, List.getElem?_cons_zero, excOf]
      · simp only [py, offsetVal, List.getElem?_cons_succ, List.getElem?_cons_zero, excOf, h1]

theorem calc_calc_single_or_parallel_q {beta : CutChoice} {v : Val} (hb : IsBeta st beta v) (tsq : ℝ) (ht : 0 ≤ tsq ∨ ∀ bs, beta ≠ .seq (none :: bs)) :
    call (mach A ext) (fuel + 5) (.meth (.ref l) "calc_single_or_parallel_q") [v, .num tsq] st
      = outcome strategyVal (A.calcSingleOrParallelQ c beta tsq) st := by
  have h0 := calc_calc_bias_cut_q hA (ext := ext) hc (fuel + 2)
  have h1 := calc_calc_parallel_q hA (ext := ext) hc (fuel + 1)
  have h5 := calc_calc_bias_cut_q_none (A := A) (ext := ext) hc (fuel + 2)
  have h6 := calc_calc_parallel_q_none (A := A) (ext := ext) hc (fuel + 3)
  obtain ⟨-, attrs, lh, hl, ha, hh⟩ := hc
  have h2 : attrs "calc_bias_cut_q" = none := ha.only _ (by decide)
  have h3 : attrs "calc_parallel_q" = none := ha.only _ (by decide)
  have h4 := isCalc_parallel (A := A) (ext := ext) ha
  rw [call_meth hl method_EllCalc_calc_single_or_parallel_q rfl]
  simp only [Source.EllCalc.EllCalc.calc_single_or_parallel_q]
  rcases hb.cases' A with ⟨b, rfl, rfl⟩ | ⟨bs, rfl, hs⟩
  · simp only [py, hl, h0, h2, Arith.calcSingleOrParallelQ]
  rcases bs with _ | ⟨_ | b0, _ | ⟨b1, bs⟩⟩
  · simp only [py, hl, h2, h4, hs.number, hs.len, hs.nil rfl, Arith.calcSingleOrParallelQ, List.length_nil, zero_lt_two, true_or,
      EllCalc.firstOffset, excOf]
  · have ht := ht.resolve_right fun h => h _ rfl
    simp only [py, hl, h2, h4, h5 _ ht, hs.number, hs.len, hs.zero _ _ rfl, offsetVal, Arith.calcSingleOrParallelQ, List.length_singleton, one_lt_two, true_or,
      EllCalc.firstOffset, excOf]
  · have ht := ht.resolve_right fun h => h _ rfl
    simp only [py, hl, h2, h3, h4, h5 _ ht, hs.number, hs.len, hs.zero _ _ rfl, hs.one _ _ _ rfl, Arith.calcSingleOrParallelQ, long_seq, long_seq', false_or,
      EllCalc.firstOffset, offsetVal, excOf]
    cases c.useParallelCut
    · simp only [py, offsetVal]
    · rcases b1 with _ | b1
      · simp only [py, offsetVal, List.getElem?_cons_succ, List.getElem?_cons_zero, excOf]
      · simp only [py, offsetVal, List.getElem?_cons_succ, List.getElem?_cons_zero, excOf, h6]
  · simp only [py, hl, h0, h2, h4, hs.number, hs.len, hs.zero _ _ rfl, offsetVal, Arith.calcSingleOrParallelQ, List.length_singleton, one_lt_two, true_or,
      EllCalc.firstOffset, excOf]
  · simp only [py, hl, h0, h2, h3, h4, hs.number, hs.len, hs.zero _ _ rfl, hs.one _ _ _ rfl, Arith.calcSingleOrParallelQ, long_seq, long_seq', false_or,
      EllCalc.firstOffset, offsetVal, excOf]
    cases c.useParallelCut
    · simp only [py, offsetVal]
    · rcases b1 with _ | b1
      · simp only [py, offsetVal, List.getElem?_cons_succ, List.getElem?_cons_zero, excOf]
      · simp only [py, offsetVal, List.getElem?_cons_succ, List.getElem?_cons_zero, excOf, h1]

theorem calc_calc_single_or_parallel_central_cut {beta : CutChoice} {v : Val} (hb : IsBeta st beta v) (tsq : ℝ) :
    call (mach A ext) (fuel + 3) (.meth (.ref l) "calc_single_or_parallel_central_cut") [v, .num tsq] st
      = outcome strategyVal (A.calcSingleOrParallelCentralCut c beta tsq) st := by
  obtain ⟨-, attrs, lh, hl, ha, hh⟩ := hc
  have h0 := core_calc_central_cut (ext := ext) hh (fuel + 1)
  have h1 := core_calc_parallel_central_cut hA (ext := ext) hh fuel
  obtain ⟨-, attrs', hl', ha'⟩ := hh
  have h2 : attrs' "calc_central_cut" = none := ha'.only _ (by decide)
  have h3 : attrs' "calc_parallel_central_cut" = none := ha'.only _ (by decide)
  have h4 := isCalc_parallel (A := A) (ext := ext) ha
  rw [call_meth hl method_EllCalc_calc_single_or_parallel_central_cut rfl]
  simp only [Source.EllCalc.EllCalc.calc_single_or_parallel_central_cut]
  rcases hb.cases' A with ⟨b, rfl, rfl⟩ | ⟨bs, rfl, hs⟩
  · simp only [py, hl, hl', h0, h2, ha.helper, Arith.calcSingleOrParallelCentralCut, Arith.psqrt, strategyVal, statusVal, excOf]
  rcases bs with _ | ⟨b0, _ | ⟨b1, bs⟩⟩
  · simp only [py, hl, hl', h0, h2, h4, ha.helper, hs.number, hs.len, Arith.calcSingleOrParallelCentralCut, Arith.psqrt, strategyVal, statusVal, excOf,
      List.length_nil, zero_lt_two, true_or]
  · simp only [py, hl, hl', h0, h2, h4, ha.helper, hs.number, hs.len, Arith.calcSingleOrParallelCentralCut, Arith.psqrt, strategyVal, statusVal, excOf,
      List.length_singleton, one_lt_two, true_or]
  · simp only [py, hl, hl', h0, h2, h4, ha.helper, hs.number, hs.len, Arith.calcSingleOrParallelCentralCut, Arith.psqrt, strategyVal, statusVal, excOf,
      long_seq, long_seq', false_or, hs.one _ _ _ rfl]
    cases c.useParallelCut
    · simp only [py]
    · rcases b1 with _ | b1
      · simp only [py, offsetVal, List.getElem?_cons_succ, List.getElem?_cons_zero, excOf]
      · simp only [py, hl, hl', h0, h1, h2, h3, ha.helper, hA.lit0, offsetVal, List.getElem?_cons_succ, List.getElem?_cons_zero, excOf, statusVal]
        split_ifs <;> first | rfl | (cases A.calcParallelCentralCut c.helper b1 tsq <;> rfl)

end methods

/-- What an operation that may write to the locations `S` leaves alone. -/
structure Frame (S : ℕ → Prop) (st st' : St W) : Prop where
  next : st.next ≤ st'.next
  world : st'.world = st.world
  same : ∀ k < st.next, ¬ S k → st'.heap k = st.heap k

theorem Frame.refl (S : ℕ → Prop) (st : St W) : Frame S st st := ⟨le_rfl, rfl, fun _ _ _ => rfl⟩

theorem Frame.trans {S : ℕ → Prop} {st st' st'' : St W} (h : Frame S st st') (h' : Frame S st' st'') : Frame S st st'' :=
  ⟨h.next.trans h'.next, h'.world.trans h.world, fun k hk hS => (h'.same k (hk.trans_le h.next) hS).trans (h.same k hk hS)⟩

theorem Frame.alloc {S : ℕ → Prop} {st st' : St W} (h : Frame S st st') (o : Obj) : Frame S st (st'.alloc o) :=
  ⟨h.next.trans (Nat.le_succ _), h.world, fun k hk hS => (heap_alloc_ne (hk.trans_le h.next).ne o).trans (h.same k hk hS)⟩

theorem Frame.put {S : ℕ → Prop} {st st' : St W} (h : Frame S st st') {l : ℕ} (o : Obj) (hl : S l ∨ st.next ≤ l) : Frame S st (st'.put l o) :=
  ⟨h.next, h.world, fun k hk hS =>
    (heap_put_ne (by rintro rfl; rcases hl with h | h; exacts [hS h, absurd h hk.not_ge]) o).trans (h.same k hk hS)⟩

theorem CoreAt.mono {A : Arith} {st st' : St W} {l : ℕ} {c : EllCalcCore} (h : CoreAt A st l c) (hn : st.next ≤ st'.next)
    (hs : ∀ k < st.next, ∀ attrs, st.heap k = some (.inst "EllCalcCore" attrs) → st'.heap k = st.heap k) : CoreAt A st' l c := by
  obtain ⟨hlt, attrs, hl, ha⟩ := h
  exact ⟨hlt.trans_le hn, attrs, (hs l hlt attrs hl).trans hl, ha⟩

theorem CalcAt.mono {A : Arith} {st st' : St W} {l : ℕ} {c : EllCalc} (h : CalcAt A st l c) (hn : st.next ≤ st'.next)
    (hs : ∀ k < st.next, ∀ cls attrs, cls = "EllCalc" ∨ cls = "EllCalcCore" → st.heap k = some (.inst cls attrs) → st'.heap k = st.heap k) :
    CalcAt A st' l c := by
  obtain ⟨hlt, attrs, lh, hl, ha, hh⟩ := h
  exact ⟨hlt.trans_le hn, attrs, lh, (hs l hlt _ attrs (.inl rfl) hl).trans hl, ha, hh.mono hn fun k hk attrs => hs k hk _ attrs (.inr rfl)⟩

/-- `EllCalc(n)` for an integer that is a machine number. -/
theorem calc_init {A : Arith} (hA : Literals A) {ext : ℕ → String → List Val → M W Val} (st : St W) (fuel : ℕ) (n : ℤ) (hn : A.rnd n = n) :
    ∃ st', call (mach A ext) (fuel + 2) (.glob "EllCalc") [.int n] st
        = (match A.calcInit n with | .ok _ => Res.ok (.ref st.next) st' | .error e => Res.exc (excOf e) st')
      ∧ Frame (fun _ => False) st st' ∧ ∀ c, A.calcInit n = .ok c → CalcAt A st' st.next c := by
  obtain ⟨attrs, h1, h2⟩ := core_init_int hA (ext := ext) (st.alloc (.inst "EllCalc" (Env.empty.set "_n_f" (.num n)))) fuel n hn
  rw [call_class (k := Source.EllCalc.EllCalc) (f := Source.EllCalc.EllCalc.__init__) rfl rfl rfl rfl]
  simp only [Source.EllCalc.EllCalc.__init__]
  by_cases h0 : n ≥ 2
  · simp only [py, h0, hn, h1, Arith.calcInit]
    rcases hr : A.coreInit n with e | c
    · simp only [py, hr]
      exact ⟨_, rfl, ((Frame.refl _ _).alloc _).alloc _, nofun⟩
    · have h3 : ¬ st.next = st.next + 1 := by omega
      simp only [py, hr, heap_alloc, h3]
      refine ⟨_, rfl, (((Frame.refl _ _).alloc _).alloc _).put _ (.inr le_rfl), ?_⟩
      rintro _ ⟨⟩
      refine ⟨?_, (Env.empty.set "_n_f" (.num n)).set "helper" (.ref (st.next + 1)), st.next + 1, heap_put_self _ _,
        ⟨rfl, rfl, .inr ⟨rfl, rfl⟩, ?_⟩, ?_, attrs, ?_, h2 c hr⟩
      · simp only [py]; omega
      · intro a ha
        simp only [List.mem_cons, List.not_mem_nil, or_false, not_or] at ha
        simp only [Env.set, ha, if_false, Env.empty]
      · simp only [py]; omega
      · rw [heap_put_ne (by omega)]; exact heap_alloc_self _
  · simp only [py, h0, Arith.calcInit, excOf]
    exact ⟨_, rfl, (Frame.refl _ _).alloc _, nofun⟩

/-- The hypotheses of the theorems about methods: `EllCalc(2)` on the empty heap, and a pair of offsets. -/
example : ∃ (st : St Unit) (c : EllCalc), CalcAt Arith.exact st 0 c ∧ c.useParallelCut = true ∧ IsBeta st (.seq [some (1 / 4), some 1]) (.tuple [.num (1 / 4), .num 1]) := by
  obtain ⟨st, -, -, h⟩ := calc_init literals_exact (ext := fun _ _ _ => M.stuck) (⟨fun _ => none, 0, ()⟩ : St Unit) 0 2 rfl
  have hc : ∃ c, Arith.exact.calcInit 2 = .ok c ∧ c.useParallelCut = true := by
    have h3 : (2 : ℝ) + 1 ≠ 0 := by norm_num
    have h4 : (2 : ℝ) * 2 - 1 ≠ 0 := by norm_num
    refine ⟨_, by simp [Arith.calcInit, h3, h4, Arith.coreInit, Arith.pdiv, Arith.exact, Arith.add, Arith.sub, Arith.mul, Arith.div]; rfl, rfl⟩
  obtain ⟨c, hc, hc'⟩ := hc
  exact ⟨st, c, h c hc, hc', .tuple [some (1 / 4), some 1]⟩

end Ellalgo.Py
