import Verif.Py.Refine.EllCalcTpy
import Verif.Props.EllCalcTpy
import Verif.Props.Rounded

/-!
# C115: the text of `ell_calc.tpy` against the text of `ell_calc.py`

Two interpreters, one with the template and one with the shipped files, both in exact arithmetic. Each has made an `EllCalc(n)`.
-/

namespace Ellalgo.Py

variable {W W' : Type} {ext : ℕ → String → List Val → M W Val} {ext' : ℕ → String → List Val → M W' Val} {fuel fuel' n : ℕ}

/-- Answers of the template, `(status, rho, sigma, delta)`, and of the shipped class, `(status, (rho, sigma, delta))` or `(status, None)`, that say the same: the same status and parameters, with
zeros for `None`, or the same exception. Neither call changes anything. -/
def SameAnswer (x : Res W Val) (st : St W) (y : Res W' Val) (st' : St W') : Prop :=
  (∃ s r σ δ, x = .ok (.tuple [.glob s, .num r, .num σ, .num δ]) st ∧ y = .ok (.tuple [.glob s, .tuple [.num r, .num σ, .num δ]]) st') ∨
  (∃ s, x = .ok (.tuple [.glob s, .num 0, .num 0, .num 0]) st ∧ y = .ok (.tuple [.glob s, .none]) st') ∨
  ∃ e, x = .exc e st ∧ y = .exc e st'

theorem statusVal_glob (s : CutStatus) : ∃ g, statusVal s = .glob g := by cases s <;> exact ⟨_, rfl⟩

theorem sameAnswer {r r' : StrategyResult} (h : r = r') (st : St W) (st' : St W') : SameAnswer (outcome flatVal r st) st (outcome strategyVal r' st') st' := by
  subst h
  rcases r with e | ⟨s, _ | p⟩
  · exact .inr (.inr ⟨_, rfl, rfl⟩)
  · obtain ⟨g, hg⟩ := statusVal_glob s
    refine .inr (.inl ⟨g, ?_, ?_⟩) <;> simp only [outcome, flatVal, strategyVal, hg] <;> rfl
  · obtain ⟨g, hg⟩ := statusVal_glob s
    refine .inl ⟨g, p.rho, p.sigma, p.delta, ?_, ?_⟩ <;> simp only [outcome, flatVal, strategyVal, paramsVal, hg] <;> rfl

/-- A location with an `EllCalc(n)` of the template whose `use_parallel_cut` is `u`. -/
def TpyMade (n : ℕ) (u : Bool) (st : St W) (o : ℕ) : Prop := ∃ c, EllCalcTpy.init n = .ok c ∧ CalcTpyAt st o { c with useParallelCut := u }

/-- The same for the shipped class. -/
def CalcMade (n : ℕ) (u : Bool) (st : St W) (o : ℕ) : Prop := ∃ c, EllCalc.init n = .ok c ∧ CalcAt Arith.exact st o { c with useParallelCut := u }

theorem tpy_init_ok {n : ℕ} (hn : 2 ≤ n) : ∃ c, EllCalcTpy.init n = .ok c ∧ c.useParallelCut = true := by
  have h : (2 : ℝ) ≤ n := by exact_mod_cast hn
  have h1 : (n : ℝ) ^ 2 - 1 ≠ 0 := by nlinarith
  unfold EllCalcTpy.init
  simp only [Int.cast_natCast]
  rw [pdiv_ok two_ne_zero, pdiv_ok (by positivity), pdiv_ok h1]
  exact ⟨_, rfl, rfl⟩

/-- **C115, the constructors.** `EllCalc(n)` with `n ≥ 2` succeeds in both files, on whatever memory, and disturbs nothing. In the template, `EllCalc(1)` and `EllCalc(-1)` raise `ZeroDivisionError`, and
every other integer is accepted; the shipped class raises `AssertionError` for every `n < 2`. -/
theorem C115_init (st : St W) (st' : St W') :
    (∀ n : ℕ, 2 ≤ n → (∃ o s, call (tcmach ext) (fuel + 2) (.glob "EllCalc") [.int n] st = .ok (.ref o) s ∧ TpyMade n true s o ∧ Frame (fun _ => False) st s) ∧
      ∃ o s, call (mach Arith.exact ext') (fuel' + 2) (.glob "EllCalc") [.int n] st' = .ok (.ref o) s ∧ CalcMade n true s o ∧ Frame (fun _ => False) st' s) ∧
    ∀ n : ℤ, n < 2 → (∃ s, call (mach Arith.exact ext') (fuel' + 2) (.glob "EllCalc") [.int n] st' = .exc "AssertionError" s) ∧
      ((n = 1 ∨ n = -1) → ∃ s, call (tcmach ext) (fuel + 2) (.glob "EllCalc") [.int n] st = .exc "ZeroDivisionError" s) ∧
      (n ≠ 1 → n ≠ -1 → ∃ o s, call (tcmach ext) (fuel + 2) (.glob "EllCalc") [.int n] st = .ok (.ref o) s) := by
  refine ⟨fun n hn => ⟨?_, ?_⟩, fun n hn => ⟨?_, ?_, ?_⟩⟩
  · obtain ⟨c, h1, h2⟩ := tpy_init_ok hn
    obtain ⟨s, k1, k2, k3⟩ := tpy_init (ext := ext) (fuel := fuel) st (n : ℤ)
    rw [h1] at k1
    exact ⟨_, s, k1, ⟨c, h1, by have := k3 c h1; rwa [← h2]⟩, k2⟩
  · obtain ⟨s, k1, k2, k3⟩ := calc_init literals_exact (ext := ext') st' fuel' (n : ℤ) rfl
    have h1 := EllCalc.init_two_le hn
    have h1' : Arith.exact.calcInit (n : ℤ) = .ok _ := h1
    rw [h1'] at k1
    exact ⟨_, s, k1, ⟨_, h1, k3 _ h1'⟩, k2⟩
  · obtain ⟨s, k1, -⟩ := calc_init literals_exact (ext := ext') st' fuel' n rfl
    have h1 : Arith.exact.calcInit n = .error .assertion := by unfold Arith.calcInit; rw [if_neg (by omega)]
    rw [h1] at k1
    exact ⟨s, k1⟩
  · intro h
    obtain ⟨s, k1, -⟩ := tpy_init (ext := ext) (fuel := fuel) st n
    have h1 : EllCalcTpy.init n = .error .zeroDivision := by
      rcases h with rfl | rfl <;> simp [EllCalcTpy.init, pdiv] <;> norm_num <;> rfl
    rw [h1] at k1
    exact ⟨s, k1⟩
  · intro h2 h3
    obtain ⟨s, k1, -⟩ := tpy_init (ext := ext) (fuel := fuel) st n
    have h4 : (n : ℝ) + 1 ≠ 0 := by exact_mod_cast (show n + 1 ≠ 0 by omega)
    have h5 : (n : ℝ) ^ 2 - 1 ≠ 0 := by
      have : (n - 1) * (n + 1) ≠ 0 := mul_ne_zero (by omega) (by omega)
      have e : (n : ℝ) ^ 2 - 1 = ((n - 1) * (n + 1) : ℤ) := by push_cast; ring
      rw [e]; exact_mod_cast this
    have h1 : ∃ c, EllCalcTpy.init n = .ok c := by
      unfold EllCalcTpy.init
      simp only
      rw [pdiv_ok two_ne_zero, pdiv_ok h4, pdiv_ok h5]
      exact ⟨_, rfl⟩
    obtain ⟨c, h1⟩ := h1
    rw [h1] at k1
    exact ⟨_, s, k1⟩

section
variable (hn : 2 ≤ n) {u : Bool} {st : St W} {o : ℕ} {st' : St W'} {o' : ℕ} {tsq : ℝ} (ht : 0 < tsq)
include hn ht

/-- **C115, single cuts.** A number, a sequence of one number, or a sequence that starts with a number while `use_parallel_cut` is false; `tsq > 0`. The three functions of the template and those of
the shipped class give the same answers. -/
theorem C115_single (h : TpyMade n u st o) (h' : CalcMade n u st' o') {β : ℝ} {cut : CutChoice} {v v' : Val} (hv : IsBeta st cut v) (hv' : IsBeta st' cut v')
    (hcut : cut = .scalar β ∨ cut = .seq [some β] ∨ u = false ∧ ∃ l, cut = .seq (some β :: l)) :
    ∀ m ∈ ["calc_single_or_parallel", "calc_single_or_parallel_central_cut", "calc_single_or_parallel_q"],
      SameAnswer (call (tcmach ext) (fuel + 5) (.meth (.ref o) m) [v, .num tsq] st) st (call (mach Arith.exact ext') (fuel' + 5) (.meth (.ref o') m) [v', .num tsq] st') st' := by
  obtain ⟨t, h1, h2⟩ := h
  obtain ⟨c, h3, h4⟩ := h'
  obtain ⟨k1, k2, k3⟩ := C89_single hn t h1 c h3 u β tsq ht cut hcut
  intro m hm
  simp only [List.mem_cons, List.not_mem_nil, or_false] at hm
  rcases hm with rfl | rfl | rfl
  · rw [tpy_calc_single_or_parallel h2 hv, calc_calc_single_or_parallel literals_exact h4 fuel' hv', Arith.exact_single]
    exact sameAnswer k1 st st'
  · rw [tpy_calc_single_or_parallel_central_cut h2 hv, calc_calc_single_or_parallel_central_cut literals_exact h4 (fuel' + 2) hv', Arith.exact_central]
    exact sameAnswer k2 st st'
  · rw [tpy_calc_single_or_parallel_q h2 hv _ (.inl ht.le), calc_calc_single_or_parallel_q literals_exact h4 fuel' hv' _ (.inl ht.le), Arith.exact_singleQ]
    exact sameAnswer k3 st st'

/-- **C115, parallel cuts.** Two numbers (and perhaps more entries) with `use_parallel_cut` true and `tsq > 0`. `calc_single_or_parallel` gives the same answers except that the template divides by zero if
`beta0 + beta1 = 0` and the second plane meets the ellipsoid, and that the shipped one raises `AssertionError` also if `beta0 < 0` and the second plane touches it. -/
theorem C115_parallel (h : TpyMade n true st o) (h' : CalcMade n true st' o') {β0 β1 : ℝ} {l : List (Option ℝ)} {v v' : Val} (hv : IsBeta st (.seq (some β0 :: some β1 :: l)) v)
    (hv' : IsBeta st' (.seq (some β0 :: some β1 :: l)) v') :
    (β0 + β1 ≠ 0 → (0 ≤ β0 ∨ β1 ≤ 0 ∨ tsq ≠ β1 * β1) →
      SameAnswer (call (tcmach ext) (fuel + 5) (.meth (.ref o) "calc_single_or_parallel") [v, .num tsq] st) st
        (call (mach Arith.exact ext') (fuel' + 5) (.meth (.ref o') "calc_single_or_parallel") [v', .num tsq] st') st') ∧
    (β0 + β1 = 0 → β0 ≤ β1 → β1 * β1 ≤ tsq → call (tcmach ext) (fuel + 5) (.meth (.ref o) "calc_single_or_parallel") [v, .num tsq] st = .exc "ZeroDivisionError" st) ∧
    (β0 < 0 → 0 < β1 → tsq = β1 * β1 → call (mach Arith.exact ext') (fuel' + 5) (.meth (.ref o') "calc_single_or_parallel") [v', .num tsq] st' = .exc "AssertionError" st') := by
  obtain ⟨t, h1, h2⟩ := h
  obtain ⟨c, h3, h4⟩ := h'
  have et : ({ t with useParallelCut := true } : EllCalcTpy) = t := by rw [EllCalcTpy.init_eq hn h1]; rfl
  have ec : ({ c with useParallelCut := true } : EllCalc) = c := by rw [(EllCalc.init_eq h3).2]
  rw [et] at h2
  rw [ec] at h4
  obtain ⟨k1, k2, k3⟩ := C89_parallel hn t h1 c h3 β0 β1 tsq ht l
  rw [tpy_calc_single_or_parallel h2 hv, calc_calc_single_or_parallel literals_exact h4 fuel' hv', Arith.exact_single]
  exact ⟨fun a b => sameAnswer (k1 a b) st st', fun a b d => by rw [k2 a b d]; rfl, fun a b d => by rw [k3 a b d]; rfl⟩

/-- **C115, parallel cuts of the discrete method.** If `beta0 + beta1 ≠ 0` then `calc_single_or_parallel_q` gives the same answers, except where `tsq + n * beta0 * beta1 = 0`: there the template answers
`Success` with parameters that change nothing, and the shipped one `NoEffect`. -/
theorem C115_parallel_q (h : TpyMade n true st o) (h' : CalcMade n true st' o') {β0 β1 : ℝ} {l : List (Option ℝ)} {v v' : Val} (hv : IsBeta st (.seq (some β0 :: some β1 :: l)) v)
    (hv' : IsBeta st' (.seq (some β0 :: some β1 :: l)) v') (hs : β0 + β1 ≠ 0) :
    (tsq + n * (β0 * β1) ≠ 0 →
      SameAnswer (call (tcmach ext) (fuel + 5) (.meth (.ref o) "calc_single_or_parallel_q") [v, .num tsq] st) st
        (call (mach Arith.exact ext') (fuel' + 5) (.meth (.ref o') "calc_single_or_parallel_q") [v', .num tsq] st') st') ∧
    (tsq + n * (β0 * β1) = 0 → β0 ≤ β1 → β1 * β1 ≤ tsq →
      call (tcmach ext) (fuel + 5) (.meth (.ref o) "calc_single_or_parallel_q") [v, .num tsq] st = .ok (.tuple [.glob "CutStatus.Success", .num 0, .num 0, .num 1]) st ∧
      call (mach Arith.exact ext') (fuel' + 5) (.meth (.ref o') "calc_single_or_parallel_q") [v', .num tsq] st' = .ok (.tuple [.glob "CutStatus.NoEffect", .none]) st') := by
  obtain ⟨t, h1, h2⟩ := h
  obtain ⟨c, h3, h4⟩ := h'
  have et : ({ t with useParallelCut := true } : EllCalcTpy) = t := by rw [EllCalcTpy.init_eq hn h1]; rfl
  have ec : ({ c with useParallelCut := true } : EllCalc) = c := by rw [(EllCalc.init_eq h3).2]
  rw [et] at h2
  rw [ec] at h4
  obtain ⟨k1, k2⟩ := C89_parallel_q hn t h1 c h3 β0 β1 tsq ht l hs
  rw [tpy_calc_single_or_parallel_q h2 hv _ (.inl ht.le), calc_calc_single_or_parallel_q literals_exact h4 fuel' hv' _ (.inl ht.le), Arith.exact_singleQ]
  refine ⟨fun a => sameAnswer (k1 a) st st', fun a b d => ?_⟩
  rw [(k2 a b d).1, (k2 a b d).2]
  exact ⟨rfl, rfl⟩

/-- **C115, central parallel cuts.** `calc_single_or_parallel_central_cut` gives the same answers if `beta1 ≠ 0`; for `beta1 = 0` the template divides by zero. -/
theorem C115_parallel_central (h : TpyMade n true st o) (h' : CalcMade n true st' o') {β0 β1 : ℝ} {l : List (Option ℝ)} {v v' : Val} (hv : IsBeta st (.seq (some β0 :: some β1 :: l)) v)
    (hv' : IsBeta st' (.seq (some β0 :: some β1 :: l)) v') :
    (β1 ≠ 0 →
      SameAnswer (call (tcmach ext) (fuel + 5) (.meth (.ref o) "calc_single_or_parallel_central_cut") [v, .num tsq] st) st
        (call (mach Arith.exact ext') (fuel' + 5) (.meth (.ref o') "calc_single_or_parallel_central_cut") [v', .num tsq] st') st') ∧
    (β1 = 0 → call (tcmach ext) (fuel + 5) (.meth (.ref o) "calc_single_or_parallel_central_cut") [v, .num tsq] st = .exc "ZeroDivisionError" st) := by
  obtain ⟨t, h1, h2⟩ := h
  obtain ⟨c, h3, h4⟩ := h'
  have et : ({ t with useParallelCut := true } : EllCalcTpy) = t := by rw [EllCalcTpy.init_eq hn h1]; rfl
  have ec : ({ c with useParallelCut := true } : EllCalc) = c := by rw [(EllCalc.init_eq h3).2]
  rw [et] at h2
  rw [ec] at h4
  obtain ⟨k1, k2⟩ := C89_parallel_central hn t h1 c h3 β0 β1 tsq ht l
  rw [tpy_calc_single_or_parallel_central_cut h2 hv, calc_calc_single_or_parallel_central_cut literals_exact h4 (fuel' + 2) hv', Arith.exact_central]
  exact ⟨fun a => sameAnswer (k1 a) st st', fun a => by rw [k2 a]; rfl⟩

end

/-- `EllCalc(4)` in both interpreters, and the cut `(1/20, 3/10)` with `tsq = 1`: all conditions hold and the answers are the same. -/
example (st : St Unit) : ∃ o s o' s', TpyMade 4 true s o ∧ CalcMade 4 true s' o' ∧
    SameAnswer (call (tcmach fun _ _ _ => (M.stuck : M Unit Val)) 5 (.meth (.ref o) "calc_single_or_parallel") [.tuple [.num (1 / 20), .num (3 / 10)], .num 1] s) s
      (call (mach Arith.exact fun _ _ _ => (M.stuck : M Unit Val)) 5 (.meth (.ref o') "calc_single_or_parallel") [.list [.num (1 / 20), .num (3 / 10)], .num 1] s') s' := by
  obtain ⟨⟨o, s, -, h1, -⟩, o', s', -, h2, -⟩ := (C115_init (ext := fun _ _ _ => (M.stuck : M Unit Val)) (ext' := fun _ _ _ => (M.stuck : M Unit Val)) (fuel := 0) (fuel' := 0) st st).1 4 (by norm_num)
  exact ⟨o, s, o', s', h1, h2, (C115_parallel (fuel := 0) (fuel' := 0) (by norm_num) one_pos h1 h2 (.tuple [some (1 / 20), some (3 / 10)]) (.list [some (1 / 20), some (3 / 10)])).1 (by norm_num) (.inl (by norm_num))⟩

end Ellalgo.Py
