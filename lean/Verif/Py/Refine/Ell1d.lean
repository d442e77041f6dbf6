import Verif.Py.Refine.LdltMgr
import Verif.Py.Source.Ell1dTpy
import Verif.Model.Ell1d

/-!
# The text of `ell1d.tpy` computes what `Model/Ell1d` says

A program of its own, in exact arithmetic. Numbers given by the caller may be integers or floats.
-/

set_option linter.unusedSimpArgs false
set_option linter.unusedTactic false
set_option linter.unreachableTactic false

namespace Ellalgo.Py

variable {W : Type} {ext : ℕ → String → List Val → M W Val} {fuel : ℕ} {st : St W}

/-- The file on its own. -/
def ell1dProg : Prog := [Source.Ell1dTpy]

/-- A machine that runs it. -/
def e1mach (ext : ℕ → String → List Val → M W Val) : Machine W := ⟨Arith.exact, ell1dProg, ext⟩

@[py] theorem e1mach_A : (e1mach ext).A = Arith.exact := rfl
@[py] theorem e1mach_prog : (e1mach ext).prog = ell1dProg := rfl
@[py] theorem e1global_abs : ell1dProg.isGlobal "abs" = true := rfl
@[py] theorem e1global_cut : ell1dProg.isGlobal "CutStatus" = true := rfl
@[py] theorem e1call_abs (x : ℝ) : call (e1mach ext) (fuel + 1) (.glob "abs") [.num x] st = .ok (.num |x|) st := by
  rw [call_lib rfl rfl]; rfl

/-! ### Numbers that may be integers -/

section
variable {v w : Val} {x y : ℝ}

theorem num_mul_val (hw : w.toReal = some y) : binOp Arith.exact .mul (.num x) w st = .ok (.num (x * y)) st := by
  cases w <;> simp [Val.toReal] at hw <;> subst hw <;> rfl

theorem val_sub_val (hv : v.toReal = some x) (hw : w.toReal = some y) : ∃ u, binOp Arith.exact .sub v w st = .ok u st ∧ u.toReal = some (x - y) := by
  cases v <;> simp [Val.toReal] at hv <;> subst hv <;> cases w <;> simp [Val.toReal] at hw <;> subst hw <;> refine ⟨_, rfl, ?_⟩ <;> simp [Val.toReal, Arith.exact, Arith.sub]

theorem val_half (hv : v.toReal = some x) : binOp Arith.exact .div v (.int 2) st = .ok (.num (x / 2)) st := by
  cases v <;> simp [Val.toReal] at hv <;> subst hv <;> simp [binOp, Val.isRef, numOp, intOp, floatOp, M.bind, M.pure, Res.bind, Arith.exact, Arith.div]

theorem val_add_num (hv : v.toReal = some x) : binOp Arith.exact .add v (.num y) st = .ok (.num (x + y)) st := by
  cases v <;> simp [Val.toReal] at hv <;> subst hv <;> rfl

theorem val_div_val (hv : v.toReal = some x) (hw : w.toReal = some y) : binOp Arith.exact .div v w st = if y = 0 then .exc "ZeroDivisionError" st else .ok (.num (x / y)) st := by
  by_cases hy : y = 0 <;> simp only [hy, if_true, if_false] <;> cases v <;> simp [Val.toReal] at hv <;> subst hv <;> cases w <;> simp [Val.toReal] at hw <;> subst hw <;>
    simp_all [binOp, Val.isRef, numOp, intOp, floatOp, M.bind, M.pure, M.exc, Res.bind, Arith.exact, Arith.div]

open Classical in
theorem val_gt_val (hv : v.toReal = some x) (hw : w.toReal = some y) : cmpOp .gt v w st = .ok (.bool (decide (x > y))) st := by
  simp only [cmpOp, hv, hw, ordOp]; congr

open Classical in
theorem val_lt_val (hv : v.toReal = some x) (hw : w.toReal = some y) : cmpOp .lt v w st = .ok (.bool (decide (x < y))) st := by
  simp only [cmpOp, hv, hw, ordOp]; congr

end

/-- An `ell1d` object. -/
structure Ell1dAt (st : St W) (l : ℕ) (e : Ell1d) : Prop where
  lt : l < st.next
  at_ : ∃ attrs vx vt, st.heap l = some (.inst "ell1d" attrs) ∧ attrs "_rd" = some (.num e.rd) ∧ attrs "_xc" = some vx ∧ vx.toReal = some e.xc ∧ attrs "_tsq" = some vt ∧ vt.toReal = some e.tsq

/-- `ell1d((l, u))`; a list will do as well as a tuple. -/
theorem call_ell1d {vl vu v : Val} {l u : ℝ} (hl : vl.toReal = some l) (hu : vu.toReal = some u) (hv : v = .tuple [vl, vu] ∨ v = .list [vl, vu]) :
    ∃ st', call (e1mach ext) (fuel + 1) (.glob "ell1d") [v] st = .ok (.ref st.next) st' ∧ Ell1dAt st' st.next (Ell1d.init l u) ∧ Frame (fun _ => False) st st' := by
  rw [call_class (k := Source.Ell1dTpy.ell1d) (f := Source.Ell1dTpy.ell1d.__init__) rfl rfl rfl rfl]
  simp only [Source.Ell1dTpy.ell1d.__init__]
  rcases hv with rfl | rfl
  all_goals
    obtain ⟨w, h1, h2⟩ := val_sub_val (st := st.alloc (.inst "ell1d" Env.empty)) hu hl
    simp only [py, h1, val_half h2, val_add_num hl]
    exact ⟨_, rfl, ⟨by simp only [py]; omega, _, _, _, by simp only [py]; rfl, by simp only [py]; rfl, by simp only [py]; rfl, by simp [Val.toReal, Ell1d.init], by simp only [py]; rfl, by simp [Val.toReal, Ell1d.init]⟩, (Frame.refl _ _).alloc _⟩

section
variable {v w : Val} {x y : ℝ}

theorem val_sub_num (hv : v.toReal = some x) : binOp Arith.exact .sub v (.num y) st = .ok (.num (x - y)) st := by
  cases v <;> simp [Val.toReal] at hv <;> subst hv <;> rfl

theorem val_aug_num (hv : v.toReal = some x) : augOp Arith.exact .add v (.num y) st = .ok (.num (x + y)) st := by
  cases v <;> simp [Val.toReal] at hv <;> subst hv <;> rfl

theorem num_int_zero : (Val.int 0).toReal = some 0 := by simp [Val.toReal]

open Classical in
theorem val_eq_zero (hv : v.toReal = some x) : cmpOp .eq v (.int 0) st = .ok (.bool (decide (x = 0))) st := by
  cases v <;> simp [Val.toReal] at hv <;> subst hv <;> simp [cmpOp, eqOp, Val.toReal, M.bind, M.pure, Res.bind]

theorem num_half : binOp Arith.exact .div (.num x) (.int 2) st = .ok (.num (x / 2)) st := val_half (by simp [Val.toReal])

theorem num_sq : binOp Arith.exact .pow (.num x) (.int 2) st = .ok (.num (x ^ 2)) st := by
  simp [binOp, Val.isRef, numOp, intOp, floatOp, M.bind, M.pure, Res.bind, Arith.exact, Arith.mul]; ring
end

theorem e1_put {o : ℕ} {e : Ell1d} {attrs : Env} {vx vt : Val} (ho : o < st.next) (h1 : attrs "_rd" = some (.num e.rd)) (h2 : attrs "_xc" = some vx) (h3 : vx.toReal = some e.xc)
    (h4 : attrs "_tsq" = some vt) (h5 : vt.toReal = some e.tsq) : Ell1dAt (st.put o (.inst "ell1d" attrs)) o e :=
  ⟨ho, attrs, vx, vt, by simp only [py], h1, h2, h3, h4, h5⟩

/-- The body of `update`, whichever way `central_cut` was given. -/
theorem e1_update_body {o : ℕ} {e : Ell1d} (h : Ell1dAt st o e) {vg vb v : Val} {g b : ℝ} (hg : vg.toReal = some g) (hb : vb.toReal = some b)
    (hv : v = .tuple [vg, vb] ∨ v = .list [vg, vb]) (c : Bool) :
    ∃ st', runBody (e1mach ext) (call (e1mach ext) (fuel + 1)) Source.Ell1dTpy.ell1d.update.params Source.Ell1dTpy.ell1d.update.body
        [.ref o, v, .bool c] Env.empty st = outcome statusVal (e.update (g, b) c).2 st'
      ∧ Ell1dAt st' o (e.update (g, b) c).1 ∧ Frame (fun k => k = o) st st' := by
  obtain ⟨ho, attrs, vx, vt, h1, h2, h3, h4, h5, h6⟩ := h
  simp only [Source.Ell1dTpy.ell1d.update]
  have hz := num_int_zero
  rcases hv with rfl | rfl
  all_goals
    simp only [py, h1, h2, num_mul_val hg, num_sq, val_eq_zero hb]
    by_cases hc : c = true ∨ b = 0
    · have hu : e.update (g, b) c = ({ rd := e.rd / 2, xc := e.xc + (if g > 0 then -(e.rd / 2) else e.rd / 2), tsq := |e.rd * g| ^ 2 }, .ok .success) := by
        simp only [Ell1d.update, if_pos hc]
      rw [hu]
      rcases hc with hc | hc <;> cases c <;> try simp only [reduceCtorEq] at hc
      all_goals by_cases hp : g > 0 <;> simp only [hc, hp, py, h1, h2, h3, num_half, val_gt_val hg hz, val_aug_num h4, decide_true, decide_false]
      all_goals
        refine ⟨_, rfl, ?_, ?_⟩
        · apply e1_put ho <;> first | (simp only [py]; rfl) | (simp only [py]; done) | rfl
        · exact (Frame.refl _ _).put _ (.inl rfl)
    · obtain ⟨hc1, hc2⟩ := not_or.mp hc
      have hu : e.update (g, b) c = if b > |e.rd * g| then ({ e with tsq := |e.rd * g| ^ 2 }, .ok .noSoln) else if b < -|e.rd * g| then ({ e with tsq := |e.rd * g| ^ 2 }, .ok .noEffect) else
        ({ rd := ((if g > 0 then e.xc - b / g else e.xc + e.rd) - (if g > 0 then e.xc - e.rd else e.xc - b / g)) / 2, xc := (if g > 0 then e.xc - e.rd else e.xc - b / g) + ((if g > 0 then e.xc - b / g else e.xc + e.rd) - (if g > 0 then e.xc - e.rd else e.xc - b / g)) / 2, tsq := |e.rd * g| ^ 2 }, .ok .success) := by
        simp only [Ell1d.update, if_neg hc]
        split_ifs with q1 q2 q3
        · rfl
        · rfl
        all_goals
          have hg0 : g ≠ 0 := by
            rintro rfl
            simp only [mul_zero, abs_zero, neg_zero, not_lt, gt_iff_lt] at q1 q2
            exact hc2 (le_antisymm q1 q2)
          simp only [pdiv, if_neg hg0]
      rw [hu]
      have hc1' : c = false := by simpa using hc1
      by_cases q1 : b > |e.rd * g|
      · simp only [hc1', hc2, q1, py, h1, h2, h3, val_gt_val hb (show (Val.num |e.rd * g|).toReal = some |e.rd * g| from rfl), decide_true, decide_false, if_true]
        refine ⟨_, rfl, ?_, ?_⟩
        · refine e1_put (vt := .num (|e.rd * g| ^ 2)) ho ?_ ?_ h4 ?_ ?_ <;> first | (simp only [py, h2, h3]; done) | rfl
        · exact ((Frame.refl _ _).put _ (.inl rfl))
      have hn : (Val.num (-|e.rd * g|)).toReal = some (-|e.rd * g|) := rfl
      by_cases q2 : b < -|e.rd * g|
      · simp only [hc1', hc2, q1, q2, py, h1, h2, h3, val_gt_val hb (show (Val.num |e.rd * g|).toReal = some |e.rd * g| from rfl), val_lt_val hb hn, decide_true, decide_false, if_true]
        refine ⟨_, rfl, ?_, ?_⟩
        · refine e1_put (vt := .num (|e.rd * g| ^ 2)) ho ?_ ?_ h4 ?_ ?_ <;> first | (simp only [py, h2, h3]; done) | rfl
        · exact ((Frame.refl _ _).put _ (.inl rfl))
      have hg0 : g ≠ 0 := by
        rintro rfl
        simp only [mul_zero, abs_zero, neg_zero, not_lt, gt_iff_lt] at q1 q2
        exact hc2 (le_antisymm q1 q2)
      by_cases hp : g > 0 <;> simp only [hc1', hc2, q1, q2, hg0, hp, py, h1, h2, h3, val_gt_val hb (show (Val.num |e.rd * g|).toReal = some |e.rd * g| from rfl), val_lt_val hb hn, val_div_val hb hg, val_gt_val hg hz, val_sub_num h4,
        val_add_num h4, num_half, decide_true, decide_false, if_true, if_false]
      all_goals
        refine ⟨_, rfl, ?_, ?_⟩
        · apply e1_put ho <;> first | (simp only [py]; rfl) | (simp only [py]; done) | rfl
        · exact (Frame.refl _ _).put _ (.inl rfl)

/-- `ell.update(cut, central_cut)`. -/
theorem call_e1_update2 {o : ℕ} {e : Ell1d} (h : Ell1dAt st o e) {vg vb v : Val} {g b : ℝ} (hg : vg.toReal = some g) (hb : vb.toReal = some b)
    (hv : v = .tuple [vg, vb] ∨ v = .list [vg, vb]) (c : Bool) :
    ∃ st', call (e1mach ext) (fuel + 2) (.meth (.ref o) "update") [v, .bool c] st = outcome statusVal (e.update (g, b) c).2 st'
      ∧ Ell1dAt st' o (e.update (g, b) c).1 ∧ Frame (fun k => k = o) st st' := by
  have h' := h
  obtain ⟨-, attrs, vx, vt, h1, -⟩ := h'
  rw [call_meth (f := Source.Ell1dTpy.ell1d.update) h1 rfl rfl]
  exact e1_update_body h hg hb hv c

/-- `ell.update(cut)`. -/
theorem call_e1_update1 {o : ℕ} {e : Ell1d} (h : Ell1dAt st o e) {vg vb v : Val} {g b : ℝ} (hg : vg.toReal = some g) (hb : vb.toReal = some b)
    (hv : v = .tuple [vg, vb] ∨ v = .list [vg, vb]) :
    ∃ st', call (e1mach ext) (fuel + 2) (.meth (.ref o) "update") [v] st = outcome statusVal (e.update (g, b)).2 st'
      ∧ Ell1dAt st' o (e.update (g, b)).1 ∧ Frame (fun k => k = o) st st' := by
  have h' := h
  obtain ⟨-, attrs, vx, vt, h1, -⟩ := h'
  have hm : call (e1mach ext) (fuel + 2) (.meth (.ref o) "update") [v] st
      = runBody (e1mach ext) (call (e1mach ext) (fuel + 1)) Source.Ell1dTpy.ell1d.update.params Source.Ell1dTpy.ell1d.update.body [.ref o, v, .bool false] Env.empty st := by
    simp only [call, bind_apply, getObj_apply h1, rbind_ok]
    rfl
  rw [hm]
  exact e1_update_body h hg hb hv false

/-- `ell.xc()`: a method here, and not a property. -/
theorem call_e1_xc {o : ℕ} {e : Ell1d} (h : Ell1dAt st o e) :
    ∃ v, call (e1mach ext) (fuel + 2) (.meth (.ref o) "xc") [] st = .ok v st ∧ v.toReal = some e.xc := by
  obtain ⟨-, attrs, vx, vt, h1, h2, h3, h4, h5, h6⟩ := h
  rw [call_meth (f := Source.Ell1dTpy.ell1d.xc) h1 rfl rfl]
  simp only [Source.Ell1dTpy.ell1d.xc, py, h1, h3]
  exact ⟨_, rfl, h4⟩

/-- `ell.tsq()`. -/
theorem call_e1_tsq {o : ℕ} {e : Ell1d} (h : Ell1dAt st o e) :
    ∃ v, call (e1mach ext) (fuel + 2) (.meth (.ref o) "tsq") [] st = .ok v st ∧ v.toReal = some e.tsq := by
  obtain ⟨-, attrs, vx, vt, h1, h2, h3, h4, h5, h6⟩ := h
  rw [call_meth (f := Source.Ell1dTpy.ell1d.tsq) h1 rfl rfl]
  simp only [Source.Ell1dTpy.ell1d.tsq, py, h1, h5]
  exact ⟨_, rfl, h6⟩

/-- `ell.set_xc(x)`. -/
theorem call_e1_set_xc {o : ℕ} {e : Ell1d} (h : Ell1dAt st o e) {v : Val} {x : ℝ} (hv : v.toReal = some x) :
    ∃ st', call (e1mach ext) (fuel + 2) (.meth (.ref o) "set_xc") [v] st = .ok .none st' ∧ Ell1dAt st' o (e.setXc x) ∧ Frame (fun k => k = o) st st' := by
  obtain ⟨ho, attrs, vx, vt, h1, h2, h3, h4, h5, h6⟩ := h
  rw [call_meth (f := Source.Ell1dTpy.ell1d.set_xc) h1 rfl rfl]
  simp only [Source.Ell1dTpy.ell1d.set_xc, py, h1]
  refine ⟨_, rfl, ?_, (Frame.refl _ _).put _ (.inl rfl)⟩
  refine e1_put ho ?_ ?_ hv ?_ h6 <;> simp only [py, h2, h5, Ell1d.setXc]

end Ellalgo.Py
