import Verif.Py.Refine.Ell1d
import Verif.Model.RoundedEll1d

/-!
# The text of `ell1d.tpy` computes what `Model/RoundedEll1d` says

In any arithmetic in which the literal `2` is a machine number; all numbers that the caller gives are floats.
-/

set_option linter.unusedSimpArgs false
set_option linter.unusedTactic false
set_option linter.unreachableTactic false

namespace Ellalgo.Py

variable {W : Type} {A : Arith} {ext : ℕ → String → List Val → M W Val} {fuel : ℕ} {st : St W}

/-- A machine that runs the file with rounding. -/
def f1mach (A : Arith) (ext : ℕ → String → List Val → M W Val) : Machine W := ⟨A, ell1dProg, ext⟩

@[py] theorem f1mach_A : (f1mach A ext).A = A := rfl
@[py] theorem f1mach_prog : (f1mach A ext).prog = ell1dProg := rfl
@[py] theorem f1call_abs (x : ℝ) : call (f1mach A ext) (fuel + 1) (.glob "abs") [.num x] st = .ok (.num |x|) st := by
  rw [call_lib rfl rfl]; rfl

section
variable {x y : ℝ}

theorem fl_mul : binOp A .mul (.num x) (.num y) st = .ok (.num (A.mul x y)) st := rfl
theorem fl_sub : binOp A .sub (.num x) (.num y) st = .ok (.num (A.sub x y)) st := rfl
theorem fl_add : binOp A .add (.num x) (.num y) st = .ok (.num (A.add x y)) st := rfl
theorem fl_aug_add : augOp A .add (.num x) (.num y) st = .ok (.num (A.add x y)) st := rfl

theorem fl_half (h2 : A.rnd 2 = 2) : binOp A .div (.num x) (.int 2) st = .ok (.num (A.div x 2)) st := by
  simp [binOp, Val.isRef, numOp, floatOp, M.bind, M.pure, Res.bind, h2]

theorem fl_aug_half (h2 : A.rnd 2 = 2) : augOp A .div (.num x) (.int 2) st = .ok (.num (A.div x 2)) st := fl_half h2

theorem fl_div (hy : y ≠ 0) : binOp A .div (.num x) (.num y) st = .ok (.num (A.div x y)) st := by
  simp [binOp, Val.isRef, numOp, floatOp, M.bind, M.pure, Res.bind, hy]

theorem fl_sq : binOp A .pow (.num x) (.int 2) st = .ok (.num (A.mul x x)) st := rfl
end

/-- An `ell1d` object whose interval is kept in floats. -/
structure Float1dAt (st : St W) (l : ℕ) (e : Ell1d) : Prop where
  lt : l < st.next
  at_ : ∃ attrs, st.heap l = some (.inst "ell1d" attrs) ∧ attrs "_rd" = some (.num e.rd) ∧ attrs "_xc" = some (.num e.xc)

theorem f1_put {o : ℕ} {e : Ell1d} {attrs : Env} (ho : o < st.next) (h1 : attrs "_rd" = some (.num e.rd)) (h2 : attrs "_xc" = some (.num e.xc)) : Float1dAt (st.put o (.inst "ell1d" attrs)) o e :=
  ⟨ho, attrs, by simp only [py], h1, h2⟩

/-- `ell1d((l, u))`. -/
theorem call_f1 (h2 : A.rnd 2 = 2) {v : Val} {l u : ℝ} (hv : v = .tuple [.num l, .num u] ∨ v = .list [.num l, .num u]) :
    ∃ st', call (f1mach A ext) (fuel + 1) (.glob "ell1d") [v] st = .ok (.ref st.next) st' ∧ Float1dAt st' st.next (A.ell1dInit l u) ∧ Frame (fun _ => False) st st' := by
  rw [call_class (k := Source.Ell1dTpy.ell1d) (f := Source.Ell1dTpy.ell1d.__init__) rfl rfl rfl rfl]
  simp only [Source.Ell1dTpy.ell1d.__init__]
  rcases hv with rfl | rfl
  all_goals
    simp only [py, fl_sub, fl_half h2, fl_add]
    exact ⟨_, rfl, ⟨by simp only [py]; omega, _, by simp only [py]; rfl, by simp only [py]; rfl, by simp only [py]; rfl⟩, (Frame.refl _ _).alloc _⟩

/-- The body of `update`, whichever way `central_cut` was given. -/
theorem f1_update_body (h2' : A.rnd 2 = 2) {o : ℕ} {e : Ell1d} (h : Float1dAt st o e) {v : Val} {g b : ℝ} (hg0 : g ≠ 0)
    (hv : v = .tuple [.num g, .num b] ∨ v = .list [.num g, .num b]) (c : Bool) :
    ∃ st', runBody (f1mach A ext) (call (f1mach A ext) (fuel + 1)) Source.Ell1dTpy.ell1d.update.params Source.Ell1dTpy.ell1d.update.body
        [.ref o, v, .bool c] Env.empty st = outcome statusVal (A.ell1dUpdate e (g, b) c).2 st'
      ∧ Float1dAt st' o (A.ell1dUpdate e (g, b) c).1 ∧ Frame (fun k => k = o) st st' := by
  obtain ⟨ho, attrs, h1, h2, h3⟩ := h
  simp only [Source.Ell1dTpy.ell1d.update]
  have hz := num_int_zero
  have hg : (Val.num g).toReal = some g := rfl
  have hb : (Val.num b).toReal = some b := rfl
  rcases hv with rfl | rfl
  all_goals
    simp only [py, h1, h2, fl_mul, fl_sq, val_eq_zero hb]
    by_cases hc : c = true ∨ b = 0
    · have hu : A.ell1dUpdate e (g, b) c = ({ rd := A.div e.rd 2, xc := A.add e.xc (if g > 0 then -A.div e.rd 2 else A.div e.rd 2), tsq := A.mul |A.mul e.rd g| |A.mul e.rd g| }, .ok .success) := by
        simp only [Arith.ell1dUpdate, if_pos hc]
      rw [hu]
      rcases hc with hc | hc <;> cases c <;> try simp only [reduceCtorEq] at hc
      all_goals by_cases hp : g > 0 <;> simp only [hc, hp, py, h1, h2, h3, fl_half h2', fl_aug_half h2', fl_aug_add, val_gt_val hg hz, decide_true, decide_false]
      all_goals
        refine ⟨_, rfl, ?_, ?_⟩
        · apply f1_put ho <;> first | (simp only [py]; rfl) | (simp only [py]; done) | rfl
        · exact (Frame.refl _ _).put _ (.inl rfl)
    · obtain ⟨hc1, hc2⟩ := not_or.mp hc
      have hu : A.ell1dUpdate e (g, b) c = if b > |A.mul e.rd g| then ({ e with tsq := A.mul |A.mul e.rd g| |A.mul e.rd g| }, .ok .noSoln) else if b < -|A.mul e.rd g| then ({ e with tsq := A.mul |A.mul e.rd g| |A.mul e.rd g| }, .ok .noEffect) else
        ({ rd := A.div (A.sub (if g > 0 then A.sub e.xc (A.div b g) else A.add e.xc e.rd) (if g > 0 then A.sub e.xc e.rd else A.sub e.xc (A.div b g))) 2, xc := A.add (if g > 0 then A.sub e.xc e.rd else A.sub e.xc (A.div b g)) (A.div (A.sub (if g > 0 then A.sub e.xc (A.div b g) else A.add e.xc e.rd) (if g > 0 then A.sub e.xc e.rd else A.sub e.xc (A.div b g))) 2), tsq := A.mul |A.mul e.rd g| |A.mul e.rd g| }, .ok .success) := by
        simp only [Arith.ell1dUpdate, if_neg hc, Arith.pdiv, if_neg hg0]
      rw [hu]
      have hc1' : c = false := by simpa using hc1
      have hn0 : (Val.num |A.mul e.rd g|).toReal = some |A.mul e.rd g| := rfl
      by_cases q1 : b > |A.mul e.rd g|
      · simp only [hc1', hc2, q1, py, h1, h2, h3, val_gt_val hb hn0, decide_true, decide_false, if_true]
        refine ⟨_, rfl, ?_, ?_⟩
        · refine f1_put ho ?_ ?_ <;> first | (simp only [py, h2, h3]; done) | rfl
        · exact ((Frame.refl _ _).put _ (.inl rfl))
      have hn : (Val.num (-|A.mul e.rd g|)).toReal = some (-|A.mul e.rd g|) := rfl
      by_cases q2 : b < -|A.mul e.rd g|
      · simp only [hc1', hc2, q1, q2, py, h1, h2, h3, val_gt_val hb hn0, val_lt_val hb hn, decide_true, decide_false, if_true]
        refine ⟨_, rfl, ?_, ?_⟩
        · refine f1_put ho ?_ ?_ <;> first | (simp only [py, h2, h3]; done) | rfl
        · exact ((Frame.refl _ _).put _ (.inl rfl))
      by_cases hp : g > 0 <;> simp only [hc1', hc2, q1, q2, hp, py, h1, h2, h3, val_gt_val hb hn0, val_lt_val hb hn, fl_div hg0, val_gt_val hg hz, fl_sub,
        fl_add, fl_half h2', decide_true, decide_false, if_true, if_false]
      all_goals
        refine ⟨_, rfl, ?_, ?_⟩
        · apply f1_put ho <;> first | (simp only [py]; rfl) | (simp only [py]; done) | rfl
        · exact (Frame.refl _ _).put _ (.inl rfl)

/-- `ell.update(cut, central_cut)` and `ell.update(cut)`. -/
theorem call_f1_update (h2 : A.rnd 2 = 2) {o : ℕ} {e : Ell1d} (h : Float1dAt st o e) {v : Val} {g b : ℝ} (hg0 : g ≠ 0)
    (hv : v = .tuple [.num g, .num b] ∨ v = .list [.num g, .num b]) {vs : List Val} {c : Bool} (hc : vs = [.bool c] ∨ (vs = [] ∧ c = false)) :
    ∃ st', call (f1mach A ext) (fuel + 2) (.meth (.ref o) "update") (v :: vs) st = outcome statusVal (A.ell1dUpdate e (g, b) c).2 st'
      ∧ Float1dAt st' o (A.ell1dUpdate e (g, b) c).1 ∧ Frame (fun k => k = o) st st' := by
  have h' := h
  obtain ⟨-, attrs, h1, -⟩ := h'
  rcases hc with rfl | ⟨rfl, rfl⟩
  · rw [call_meth (f := Source.Ell1dTpy.ell1d.update) h1 rfl rfl]
    exact f1_update_body h2 h hg0 hv c
  · have hm : call (f1mach A ext) (fuel + 2) (.meth (.ref o) "update") [v] st
        = runBody (f1mach A ext) (call (f1mach A ext) (fuel + 1)) Source.Ell1dTpy.ell1d.update.params Source.Ell1dTpy.ell1d.update.body [.ref o, v, .bool false] Env.empty st := by
      simp only [call, bind_apply, getObj_apply h1, rbind_ok]
      rfl
    rw [hm]
    exact f1_update_body h2 h hg0 hv false

/-- `ell.xc()`. -/
theorem call_f1_xc {o : ℕ} {e : Ell1d} (h : Float1dAt st o e) : call (f1mach A ext) (fuel + 2) (.meth (.ref o) "xc") [] st = .ok (.num e.xc) st := by
  obtain ⟨-, attrs, h1, h2, h3⟩ := h
  rw [call_meth (f := Source.Ell1dTpy.ell1d.xc) h1 rfl rfl]
  simp only [Source.Ell1dTpy.ell1d.xc, py, h1, h3]

end Ellalgo.Py
