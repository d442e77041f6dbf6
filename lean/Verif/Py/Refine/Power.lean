import Verif.Py.Refine.LdltMgr
import Verif.Py.Source.PowerIteration
import Verif.Model.PowerIteration

/-!
# The text of `experiment/power_iteration.py` computes what `Model/PowerIteration` says

A program of its own, in exact arithmetic. Arrays have at least one entry (dividing an empty array by zero is no error). The statements after the functions, which run them on one matrix and print, are not run.
-/

set_option linter.unusedSimpArgs false

namespace Ellalgo.Py

open Matrix

variable {W : Type} {n : ℕ} {ext : ℕ → String → List Val → M W Val} {fuel : ℕ} {st : St W}

/-- The file on its own. -/
def powerProg : Prog := [Source.PowerIteration]

/-- A machine that runs it. -/
def pmach (ext : ℕ → String → List Val → M W Val) : Machine W := ⟨Arith.exact, powerProg, ext⟩

@[py] theorem pmach_A : (pmach ext).A = Arith.exact := rfl
@[py] theorem pmach_prog : (pmach ext).prog = powerProg := rfl
@[py] theorem pglobal_np : powerProg.isGlobal "np" = true := rfl
@[py] theorem pglobal_abs : powerProg.isGlobal "abs" = true := rfl
@[py] theorem pglobal_range : powerProg.isGlobal "range" = true := rfl
@[py] theorem pglobal_norm : powerProg.isGlobal "norm_l1" = true := rfl

@[py] theorem pcall_sqrt (v : Val) : call (pmach ext) (fuel + 1) (.glob "np.sqrt") [v] st = sqrtOf Arith.exact v st := call_lib rfl rfl
@[py] theorem pcall_sum (v : Val) : call (pmach ext) (fuel + 1) (.glob "np.sum") [v] st = builtin Arith.exact "np.sum" [v] st := call_lib rfl rfl
@[py] theorem pcall_np_abs (v : Val) : call (pmach ext) (fuel + 1) (.glob "np.abs") [v] st = mapNum Arith.exact (fun x => |x|) v st := call_lib rfl rfl
@[py] theorem pcall_abs (v : Val) : call (pmach ext) (fuel + 1) (.glob "abs") [v] st = builtin Arith.exact "abs" [v] st := call_lib rfl rfl
@[py] theorem pcall_range (v : Val) : call (pmach ext) (fuel + 1) (.glob "range") [v] st = builtin Arith.exact "range" [v] st := call_lib rfl rfl

/-! ### Arrays in exact arithmetic -/

/-- `x ** 2` for what was found on the heap. -/
noncomputable def sqArr (o : Option Obj) : M W Val :=
  match o with
  | some (.vec n x) => allocObj (.vec n fun i => x i * x i)
  | _ => M.stuck

@[py] theorem pow_ref (l : ℕ) : binOp Arith.exact .pow (.ref l) (.int 2) st = sqArr (st.heap l) st := by
  rw [binOp_arr _ rfl]
  simp only [operand, bind_apply, getObj_eq]
  cases st.heap l with
  | none => rfl
  | some o => cases o <;> simp [readObj, py, arrVal, arrOp, matOp, BinOp.entrywise, Arith.exact, Arith.mul, sqArr]
@[py] theorem sqArr_vec (x : Fin n → ℝ) : sqArr (some (.vec n x)) st = .ok (.ref st.next) (st.alloc (.vec n fun i => x i * x i)) := rfl

noncomputable def sumArr (o : Option Obj) : M W Val :=
  match o with
  | some (.vec _ x) => M.pure (.num (∑ i, x i))
  | _ => M.stuck

@[py] theorem sum_ref (l : ℕ) : builtin Arith.exact "np.sum" [.ref l] st = sumArr (st.heap l) st := by
  change M.bind (getObj l) _ st = _
  simp only [bind_apply, getObj_eq]
  cases st.heap l with
  | none => rfl
  | some o => cases o <;> rfl
@[py] theorem sumArr_vec (x : Fin n → ℝ) : sumArr (some (.vec n x)) st = .ok (.num (∑ i, x i)) st := rfl

noncomputable def absArr (o : Option Obj) : M W Val :=
  match o with
  | some (.vec n x) => allocObj (.vec n fun i => |x i|)
  | some (.mat r c x) => allocObj (.mat r c fun i j => |x i j|)
  | _ => M.stuck

@[py] theorem abs_ref (l : ℕ) : mapNum Arith.exact (fun x => |x|) (.ref l) st = absArr (st.heap l) st := by
  simp only [mapNum, bind_apply, getObj_eq]
  cases st.heap l with
  | none => rfl
  | some o => cases o <;> rfl
@[py] theorem absArr_vec (x : Fin n → ℝ) : absArr (some (.vec n x)) st = .ok (.ref st.next) (st.alloc (.vec n fun i => |x i|)) := rfl
@[py] theorem abs_num (x : ℝ) : builtin Arith.exact "abs" [.num x] st = .ok (.num |x|) st := rfl

@[py high] theorem sqrt_sum_sq (x : Fin n → ℝ) : sqrtOf Arith.exact (.num (∑ i, x i * x i)) st = .ok (.num (Real.sqrt (∑ i, x i ^ 2))) st := by
  rw [sqrtOf_num, if_neg (not_lt.mpr (Finset.sum_nonneg fun i _ => mul_self_nonneg _))]
  simp only [Arith.exact, sq]

@[py] theorem arr2_vv (x y : Fin n → ℝ) : arr2 Arith.exact .matmul (some (.vec n x)) (some (.vec n y)) st = .ok (.num (x ⬝ᵥ y)) st := by
  simp [arr2, arrVal, py, Arith.exact]
@[py] theorem augR_div (l : ℕ) (x : Fin (n + 1) → ℝ) (s : ℝ) : augR Arith.exact .div l (some (.vec (n + 1) x)) s st
    = if s = 0 then .exc "ZeroDivisionError" st else .ok (.ref l) (st.put l (.vec (n + 1) fun i => x i / s)) := by
  by_cases h : s = 0 <;> simp [augR, arrOp, vecOp, BinOp.entrywise, py, rawOp, h, Arith.div, Arith.exact]

theorem exact_mv (m : Mat n) (x : Vec n) : Arith.exact.mv (Matrix.of (Matrix.of.symm m)) x = m *ᵥ x := rfl

/-- `norm_l1(x)`. -/
theorem call_norm {l : ℕ} {x : Vec n} (h : st.heap l = some (.vec n x)) :
    call (pmach ext) (fuel + 2) (.glob "norm_l1") [.ref l] st = .ok (.num (normL1 x)) (st.alloc (.vec n fun i => |x i|)) := by
  rw [call_fun (f := Source.PowerIteration.norm_l1) rfl rfl]
  simp only [Source.PowerIteration.norm_l1, py, h]
  rfl

/-- `norm_l1(x)` for what was found on the heap. -/
noncomputable def normArr (ext : ℕ → String → List Val → M W Val) (fuel l : ℕ) (o : Option Obj) (st : St W) : Res W Val :=
  match o with
  | some (.vec n x) => .ok (.num (normL1 x)) (st.alloc (.vec n fun i => |x i|))
  | _ => call (pmach ext) (fuel + 2) (.glob "norm_l1") [.ref l] st

@[py] theorem call_norm_ref (l : ℕ) :
    call (pmach ext) (fuel + 2) (.glob "norm_l1") [.ref l] st = normArr ext fuel l (st.heap l) st := by
  cases h : st.heap l with
  | none => rfl
  | some o => cases o <;> first | exact call_norm h | rfl
@[py] theorem normArr_vec (l : ℕ) (x : Vec n) : normArr ext fuel l (some (.vec n x)) st = .ok (.num (normL1 x)) (st.alloc (.vec n fun i => |x i|)) := rfl

@[py] theorem toIdx_slice_all : toIdx (.tuple [.str "slice", .none, .none]) st = .ok (.slice none none) st := rfl

theorem range_all : sliceRange n none none st = .ok (0, n) st := by
  simp [sliceRange, M.pure]

/-- `x[:]` for what was found on the heap. -/
noncomputable def dupArr (l : ℕ) (o : Option Obj) (st : St W) : Res W Val :=
  match o with
  | some (.vec n x) => .ok (.ref st.next) (st.alloc (.vec n x))
  | _ => getItem (.ref l) [.slice none none] st

@[py] theorem get_all (l : ℕ) : getItem (.ref l) [.slice none none] st = dupArr l (st.heap l) st := by
  cases h : st.heap l with
  | none => rfl
  | some o =>
    cases o <;> first | rfl | skip
    simp only [getItem, bind_apply, getObj_apply h, rbind_ok, range_all, allocObj_apply, dupArr]
    congr 3
    funext i
    simp [Arith.slice, at1]
@[py] theorem dupArr_vec (l : ℕ) (x : Vec n) : dupArr l (some (.vec n x)) st = .ok (.ref st.next) (st.alloc (.vec n x)) := rfl

/-- `x[:] = y` for what was found on the heap. -/
noncomputable def pasteArr (l k : ℕ) (o p : Option Obj) (st : St W) : Res W Unit :=
  match o, p with
  | some (.vec n _), some (.vec m y) => if n = m then .ok () (st.put l (.vec m y)) else setItem Arith.exact (.ref l) [.slice none none] (.ref k) st
  | _, _ => setItem Arith.exact (.ref l) [.slice none none] (.ref k) st

@[py] theorem set_all (l k : ℕ) : setItem Arith.exact (.ref l) [.slice none none] (.ref k) st = pasteArr l k (st.heap l) (st.heap k) st := by
  cases h : st.heap l with
  | none => rfl
  | some o =>
    cases h' : st.heap k with
    | none => cases o <;> rfl
    | some o' =>
      cases o <;> cases o' <;> first | rfl | skip
      rename_i n x m y
      simp only [pasteArr]
      split_ifs with hnm
      · subst hnm
        simp only [setItem, setSlice, bind_apply, getObj_apply h, getObj_apply h', rbind_ok, range_all, Nat.sub_zero, if_true, putObj_apply]
        congr 3
        funext i
        simp [at1]
      · rfl
@[py] theorem pasteArr_vec (l k : ℕ) (x y : Vec n) : pasteArr l k (some (.vec n x)) (some (.vec n y)) st = .ok () (st.put l (.vec n y)) := if_pos rfl

open Classical in
theorem cmp_le_tol {v : Val} {x y : ℝ} (h : v.toReal = some y) : cmpOp .le (.num x) v st = .ok (.bool (decide (x ≤ y))) st := by
  cases v <;> simp [Val.toReal] at h <;> subst h <;> simp only [cmpOp, Val.toReal, ordOp] <;> congr!

/-! ### The loops -/

theorem loc_add (a b c : ℕ) : (a + b = a + c) = (b = c) := by simp
theorem loc_left (a b : ℕ) : (a = a + b) = (b = 0) := by simp
theorem loc_right (a b : ℕ) : (a + b = a) = (b = 0) := by simp


/-- An `Options`. -/
structure PowOpt (st : St W) (lo : ℕ) (N : ℕ) (vt : Val) : Prop where
  at_ : ∃ attrs, st.heap lo = some (.inst "Options" attrs) ∧ attrs "max_iters" = some (.int N) ∧ attrs "tolerance" = some vt

/-- What a run ends with: the vector, the number and the count of passes, or an exception. Of what was there before only the array of the caller may have changed. -/
def PowOut (st0 : St W) (lx : ℕ) (r : Except Fault (PowerResult n)) (res : Res W Val) : Prop :=
  match r with
  | .error f => ∃ st', res = .exc (excOf f) st' ∧ Frame (· = lx) st0 st'
  | .ok r => ∃ st' l, res = .ok (.tuple [.ref l, .num r.ld, .int r.niter]) st' ∧ (l = lx ∨ st0.next ≤ l) ∧ st'.heap l = some (.vec n r.x)
      ∧ st'.heap lx = some (.vec n r.arg) ∧ Frame (· = lx) st0 st'

/-- The local variables at the head of the loops of `power_iteration` and `power_iteration4`. -/
structure PowAt (st0 : St W) (lA lo lx : ℕ) (m : Mat n) (N : ℕ) (vt : Val) (arg : Vec n) (env : Env) (st : St W) (l : ℕ) (x : Vec n) : Prop where
  var : env "x" = some (.ref l)
  xAt : st.heap l = some (.vec n x)
  xlt : l < st.next
  new : l = lx ∨ st0.next ≤ l
  arg : st.heap lx = some (.vec n arg)
  ltx : lx < st0.next
  mat : env "A" = some (.ref lA)
  matAt : st.heap lA = some (.mat n n (Matrix.of.symm m))
  ltA : lA < st0.next
  opt : env "options" = some (.ref lo)
  optAt : PowOpt st lo N vt
  lto : lo < st0.next
  np : env "np" = none
  norm : env "norm_l1" = none
  frame : Frame (· = lx) st0 st

section

/-- The statements after the loop. -/
def afterFor : List PStmt → List PStmt
  | .for_ _ _ _ :: ss => ss
  | _ :: ss => afterFor ss
  | [] => []

theorem PowOpt.mono {st st' : St W} {lo N : ℕ} {vt : Val} (h : PowOpt st lo N vt) (hs : st'.heap lo = st.heap lo) : PowOpt st' lo N vt := by
  obtain ⟨attrs, h1, h2⟩ := h.at_
  exact ⟨attrs, hs.trans h1, h2⟩

/-- A pass binds `x` to a new array. -/
theorem PowAt.step {st0 st st' : St W} {lA lo lx l l' : ℕ} {m : Mat n} {N : ℕ} {vt : Val} {arg : Vec n} {env env' : Env} {x y : Vec n} (h : PowAt st0 lA lo lx m N vt arg env st l x)
    (hf : Frame (fun _ => False) st st') (hx : env' "x" = some (.ref l')) (hy : st'.heap l' = some (.vec n y)) (h1 : st.next ≤ l') (h2 : l' < st'.next)
    (he : env' "A" = env "A" ∧ env' "options" = env "options" ∧ env' "np" = env "np" ∧ env' "norm_l1" = env "norm_l1") : PowAt st0 lA lo lx m N vt arg env' st' l' y := by
  have hn := h.frame.next
  have h2' := h.ltA
  have h3 := h.lto
  have h4 := h.ltx
  exact ⟨hx, hy, h2, .inr (hn.trans h1), (hf.same _ (by omega) not_false).trans h.arg, h4, he.1.trans h.mat, (hf.same _ (by omega) not_false).trans h.matAt, h2', he.2.1.trans h.opt,
    h.optAt.mono (hf.same _ (by omega) not_false), h3, he.2.2.1.trans h.np, he.2.2.2.trans h.norm, h.frame.trans (hf.mono fun _ hh => hh.elim)⟩

/-- A pass returns a new array. -/
theorem PowAt.done {st0 st st' : St W} {lA lo lx l l' : ℕ} {m : Mat n} {N : ℕ} {vt : Val} {arg : Vec n} {env : Env} {x y : Vec n} (h : PowAt st0 lA lo lx m N vt arg env st l x)
    (hf : Frame (fun _ => False) st st') (h1 : st.next ≤ l') (hy : st'.heap l' = some (.vec n y)) :
    st0.next ≤ l' ∧ st'.heap l' = some (.vec n y) ∧ st'.heap lx = some (.vec n arg) ∧ Frame (· = lx) st0 st' :=
  ⟨h.frame.next.trans h1, hy, (hf.same _ (h.ltx.trans_le h.frame.next) not_false).trans h.arg, h.frame.trans (hf.mono fun _ hh => hh.elim)⟩

macro "frame_tac" : tactic => `(tactic| repeat (first | exact Frame.refl _ _ | refine Frame.alloc ?_ _ | refine Frame.put ?_ _ (by first | exact .inl rfl | exact .inr le_rfl | exact .inr (by omega))))

variable {st0 : St W} {lA lo lx l : ℕ} {m : Mat (n + 1)} {N : ℕ} {vt : Val} {tol : ℝ} {arg : Vec (n + 1)} {env : Env} {x : Vec (n + 1)}

open Classical in
theorem p1_turn (ht : vt.toReal = some tol) (h : PowAt st0 lA lo lx m N vt arg env st l x) (k : ℤ) :
    match arrUnit (m *ᵥ x) with
    | .error f => ∃ st', turn (pmach ext) (call (pmach ext) (fuel + 2)) (.name "niter") (loopBody Source.PowerIteration.power_iteration.body) (.int k) env st = .exc (excOf f) st' ∧ Frame (· = lx) st0 st'
    | .ok y =>
      if normL1 (y - x) ≤ tol ∨ normL1 (y + x) ≤ tol then
        ∃ st' l', turn (pmach ext) (call (pmach ext) (fuel + 2)) (.name "niter") (loopBody Source.PowerIteration.power_iteration.body) (.int k) env st
            = .ok (.ret (.tuple [.ref l', .num (y ⬝ᵥ (m *ᵥ y)), .int k])) st'
          ∧ st0.next ≤ l' ∧ st'.heap l' = some (.vec (n + 1) y) ∧ st'.heap lx = some (.vec (n + 1) arg) ∧ Frame (· = lx) st0 st'
      else ∃ st' env' l', turn (pmach ext) (call (pmach ext) (fuel + 2)) (.name "niter") (loopBody Source.PowerIteration.power_iteration.body) (.int k) env st = .ok (.next env') st'
          ∧ PowAt st0 lA lo lx m N vt arg env' st' l' y ∧ st0.next ≤ l' := by
  have hn := h.frame.next
  have h1 := h.xlt
  have h2 := h.ltA
  have h3 := h.lto
  have h4 := h.ltx
  obtain ⟨attrs, o1, o2, o3⟩ := h.optAt.at_
  have b1 : lA < st.next := by omega
  have b2 : lo < st.next := by omega
  have b3 : lx < st.next := by omega
  simp only [loopBody, Source.PowerIteration.power_iteration]
  simp only [py, h.var, h.xAt, h.mat, h.matAt, h.np, h.norm, exact_mv, loc_add, loc_left, loc_right, Nat.reduceAdd, Nat.reduceEqDiff, OfNat.ofNat_ne_zero, one_ne_zero, lt_ne h1, lt_ne_add h1, lt_ne b1, lt_ne_add b1, lt_ne b2, lt_ne_add b2, arrUnit, arrDiv]
  generalize m *ᵥ x = z
  by_cases hz : √(∑ i, z i ^ 2) = 0
  · simp only [hz, if_true, py]
    exact ⟨_, rfl, (h.frame.alloc _).alloc _⟩
  simp only [hz, if_false, py, h.norm, loc_add, loc_left, loc_right, Nat.reduceAdd, Nat.reduceEqDiff, OfNat.ofNat_ne_zero, one_ne_zero]
  simp only [h.opt, o1, o3, b2, cmp_le_tol ht, lt_ne b2, lt_ne_add b2, py]
  by_cases c1 : (normL1 fun i => Arith.exact.sub (z i / √(∑ i, z i ^ 2)) (x i)) ≤ tol
  · have c1' : normL1 ((fun i => z i / √(∑ i, z i ^ 2)) - x) ≤ tol := c1
    simp only [c1, c1', if_true, true_or, py, h.mat, h.matAt, exact_mv, loc_add, loc_left, loc_right, Nat.reduceAdd, Nat.reduceEqDiff, OfNat.ofNat_ne_zero, one_ne_zero, lt_ne b1, lt_ne_add b1]
    exact ⟨_, _, rfl, h.done (by frame_tac) le_rfl (by simp only [py, loc_add, loc_left, loc_right, Nat.reduceAdd, Nat.reduceEqDiff, OfNat.ofNat_ne_zero, one_ne_zero])⟩
  have c1' : ¬ normL1 ((fun i => z i / √(∑ i, z i ^ 2)) - x) ≤ tol := c1
  simp only [c1, c1', if_false, false_or, py, h.norm, h.opt, o1, o3, h.xAt, h.mat, h.matAt, exact_mv, cmp_le_tol ht, loc_add, loc_left, loc_right, Nat.reduceAdd, Nat.reduceEqDiff, OfNat.ofNat_ne_zero, one_ne_zero, lt_ne h1, lt_ne_add h1, lt_ne b1, lt_ne_add b1, lt_ne b2, lt_ne_add b2]
  by_cases c2 : (normL1 fun i => Arith.exact.add (z i / √(∑ i, z i ^ 2)) (x i)) ≤ tol
  · have c2' : normL1 ((fun i => z i / √(∑ i, z i ^ 2)) + x) ≤ tol := c2
    simp only [c2, c2', if_true, true_or, py, h.mat, h.matAt, exact_mv, loc_add, loc_left, loc_right, Nat.reduceAdd, Nat.reduceEqDiff, OfNat.ofNat_ne_zero, one_ne_zero, lt_ne b1, lt_ne_add b1]
    exact ⟨_, _, rfl, h.done (by frame_tac) le_rfl (by simp only [py, loc_add, loc_left, loc_right, Nat.reduceAdd, Nat.reduceEqDiff, OfNat.ofNat_ne_zero, one_ne_zero])⟩
  have c2' : ¬ normL1 ((fun i => z i / √(∑ i, z i ^ 2)) + x) ≤ tol := c2
  simp only [c2, c2', if_false, py]
  exact ⟨_, _, st.next, rfl, h.step (by frame_tac) (by simp only [py]) (by simp only [py, loc_add, loc_left, loc_right, Nat.reduceAdd, Nat.reduceEqDiff, OfNat.ofNat_ne_zero, one_ne_zero]) le_rfl (by simp only [py]; omega) (by simp only [py]; simp), hn⟩

theorem p1_loop (ht : vt.toReal = some tol) (left niter : ℕ) (hN : niter + left = N) (h : PowAt st0 lA lo lx m N vt arg env st l x) :
    PowOut st0 lx (powerLoop m ⟨N, tol⟩ arg left niter x)
      (((loop (turn (pmach ext) (call (pmach ext) (fuel + 2)) (.name "niter") (loopBody Source.PowerIteration.power_iteration.body)) (intsFrom niter left) env st).bind
        (after (pmach ext) (call (pmach ext) (fuel + 2)) (afterFor Source.PowerIteration.power_iteration.body))).bind result) := by
  induction left generalizing niter st env l x with
  | zero =>
    obtain ⟨attrs, o1, o2, o3⟩ := h.optAt.at_
    have h1 := h.xlt
    have hn := h.frame.next
    have h2 := h.ltA
    have h3 := h.lto
    have b1 : lA < st.next := by omega
    have b2 : lo < st.next := by omega
    simp only [ints_zero, afterFor, Source.PowerIteration.power_iteration, py, h.var, h.xAt, h.mat, h.matAt, h.opt, o1, o2, exact_mv, loc_add, loc_left, loc_right, Nat.reduceAdd, Nat.reduceEqDiff, OfNat.ofNat_ne_zero, one_ne_zero, lt_ne h1, lt_ne_add h1, lt_ne b1, lt_ne_add b1, lt_ne b2, lt_ne_add b2, powerLoop]
    exact ⟨_, l, rfl, h.new, by simp only [py, h.xAt, lt_ne h1], by simp only [py, h.arg, lt_ne (h.ltx.trans_le hn)], h.frame.alloc _⟩
  | succ k ih =>
    have hi := p1_turn (ext := ext) (fuel := fuel) ht h niter
    simp only [ints_succ, powerLoop]
    generalize turn (pmach ext) (call (pmach ext) (fuel + 2)) (.name "niter") (loopBody Source.PowerIteration.power_iteration.body) = T at hi ih ⊢
    rcases hr : arrUnit (m *ᵥ x) with f | y <;> rw [hr] at hi <;> dsimp only at hi ⊢
    · obtain ⟨st', e, hf⟩ := hi
      simp only [loop, bind_apply, e, py]
      exact ⟨st', rfl, hf⟩
    split_ifs at hi ⊢ with hc
    · obtain ⟨st', l', e, hl, hy, ha, hf⟩ := hi
      simp only [loop, bind_apply, e, py]
      exact ⟨st', l', rfl, .inr hl, hy, ha, hf⟩
    · obtain ⟨st', env', l', e, h', -⟩ := hi
      simp only [loop, bind_apply, e, py]
      have hh := ih (niter + 1) (by omega) h'
      rw [rbind_assoc] at hh
      exact hh

/-- What a call finds: the matrix, the array and the options. -/
structure PowArgs (st : St W) (lA lo lx : ℕ) (m : Mat n) (N : ℕ) (vt : Val) (x : Vec n) : Prop where
  matAt : st.heap lA = some (.mat n n (Matrix.of.symm m))
  xAt : st.heap lx = some (.vec n x)
  optAt : PowOpt st lo N vt
  ltA : lA < st.next
  ltx : lx < st.next
  lto : lo < st.next

theorem PowArgs.ne (h : PowArgs st lA lo lx m N vt x) : (lA = lx) = False ∧ (lo = lx) = False := by
  obtain ⟨attrs, o1, -, -⟩ := h.optAt.at_
  constructor <;> simp only [eq_iff_iff, iff_false] <;> rintro rfl
  · have := h.matAt.symm.trans h.xAt; simp at this
  · have := o1.symm.trans h.xAt; simp at this

/-- `power_iteration(A, x, options)`. -/
theorem call_power1 (ht : vt.toReal = some tol) (h : PowArgs st lA lo lx m N vt x) :
    PowOut st lx (powerIteration m x ⟨N, tol⟩) (call (pmach ext) (fuel + 3) (.glob "power_iteration") [.ref lA, .ref lx, .ref lo] st) := by
  rw [call_fun (f := Source.PowerIteration.power_iteration) rfl rfl]
  obtain ⟨attrs, o1, o2, o3⟩ := h.optAt.at_
  obtain ⟨n1, n2⟩ := h.ne
  have b1 := h.ltx
  have b2 := h.ltA
  have b3 := h.lto
  simp only [Source.PowerIteration.power_iteration, py, h.xAt, loc_add, loc_left, loc_right, Nat.reduceAdd, Nat.reduceEqDiff, OfNat.ofNat_ne_zero, one_ne_zero, lt_ne b1, lt_ne_add b1, powerIteration, arrUnit, arrDiv]
  by_cases hz : √(∑ i, x i ^ 2) = 0
  · simp only [hz, if_true, py]
    exact ⟨_, rfl, (Frame.refl _ _).alloc _⟩
  simp only [hz, if_false, py, o1, o2, n1, n2, loc_add, loc_left, loc_right, Nat.reduceAdd, Nat.reduceEqDiff, OfNat.ofNat_ne_zero, one_ne_zero, lt_ne b3, lt_ne_add b3]
  have h' : PowAt st lA lo lx m N vt (fun i => x i / √(∑ i, x i ^ 2)) ((((Env.empty.set "A" (.ref lA)).set "x" (.ref lx)).set "options" (.ref lo)).set "x" (.ref lx))
      ((st.alloc (.vec (n + 1) fun i => x i * x i)).put lx (.vec (n + 1) fun i => x i / √(∑ i, x i ^ 2))) lx (fun i => x i / √(∑ i, x i ^ 2)) :=
    ⟨by simp only [py], by simp only [py], by simp only [py]; omega, .inl rfl, by simp only [py], b1, by simp only [py], by simp only [py, n1, lt_ne b2, h.matAt], b2, by simp only [py],
      h.optAt.mono (by simp only [py, n2, lt_ne b3]), b3, by simp only [py], by simp only [py], ((Frame.refl _ _).alloc _).put _ (.inl rfl)⟩
  have hh := p1_loop (ext := ext) (fuel := fuel) ht N 0 (Nat.zero_add _) h'
  rw [rbind_assoc] at hh
  exact hh

open Classical in
theorem p4_turn (ht : vt.toReal = some tol) (h : PowAt st0 lA lo lx m N vt arg env st l x) (k : ℤ) :
    match arrDiv (m *ᵥ x) (normL1 (m *ᵥ x)) with
    | .error f => ∃ st', turn (pmach ext) (call (pmach ext) (fuel + 2)) (.name "niter") (loopBody Source.PowerIteration.power_iteration4.body) (.int k) env st = .exc (excOf f) st' ∧ Frame (· = lx) st0 st'
    | .ok y =>
      if normL1 (y - x) ≤ tol ∨ normL1 (y + x) ≤ tol then
        match arrUnit y with
        | .error f => ∃ st', turn (pmach ext) (call (pmach ext) (fuel + 2)) (.name "niter") (loopBody Source.PowerIteration.power_iteration4.body) (.int k) env st = .exc (excOf f) st' ∧ Frame (· = lx) st0 st'
        | .ok y => ∃ st' l', turn (pmach ext) (call (pmach ext) (fuel + 2)) (.name "niter") (loopBody Source.PowerIteration.power_iteration4.body) (.int k) env st
            = .ok (.ret (.tuple [.ref l', .num (y ⬝ᵥ (m *ᵥ y)), .int k])) st'
          ∧ st0.next ≤ l' ∧ st'.heap l' = some (.vec (n + 1) y) ∧ st'.heap lx = some (.vec (n + 1) arg) ∧ Frame (· = lx) st0 st'
      else ∃ st' env' l', turn (pmach ext) (call (pmach ext) (fuel + 2)) (.name "niter") (loopBody Source.PowerIteration.power_iteration4.body) (.int k) env st = .ok (.next env') st'
          ∧ PowAt st0 lA lo lx m N vt arg env' st' l' y ∧ st0.next ≤ l' := by
  have hn := h.frame.next
  have h1 := h.xlt
  have h2 := h.ltA
  have h3 := h.lto
  have h4 := h.ltx
  obtain ⟨attrs, o1, o2, o3⟩ := h.optAt.at_
  have b1 : lA < st.next := by omega
  have b2 : lo < st.next := by omega
  have b3 : lx < st.next := by omega
  simp only [loopBody, Source.PowerIteration.power_iteration4]
  simp only [py, h.var, h.xAt, h.mat, h.matAt, h.np, h.norm, exact_mv, loc_add, loc_left, loc_right, Nat.reduceAdd, Nat.reduceEqDiff, OfNat.ofNat_ne_zero, one_ne_zero, lt_ne h1, lt_ne_add h1, lt_ne b1, lt_ne_add b1, lt_ne b2, lt_ne_add b2, arrDiv]
  generalize m *ᵥ x = z
  by_cases hz : normL1 z = 0
  · simp only [hz, if_true, py]
    exact ⟨_, rfl, (h.frame.alloc _).alloc _⟩
  simp only [hz, if_false, py, h.norm, loc_add, loc_left, loc_right, Nat.reduceAdd, Nat.reduceEqDiff, OfNat.ofNat_ne_zero, one_ne_zero]
  simp only [h.opt, o1, o3, b2, cmp_le_tol ht, lt_ne b2, lt_ne_add b2, py]
  have hff : ∀ (st' : St W), Frame (fun _ => False) st st' → Frame (· = lx) st0 st' := fun st' hf => h.frame.trans (hf.mono fun _ hh => hh.elim)
  by_cases c1 : (normL1 fun i => Arith.exact.sub (z i / normL1 z) (x i)) ≤ tol
  · have c1' : normL1 ((fun i => z i / normL1 z) - x) ≤ tol := c1
    simp only [c1, c1', if_true, true_or, py, h.np, arrUnit, arrDiv, loc_add, loc_left, loc_right, Nat.reduceAdd, Nat.reduceEqDiff, OfNat.ofNat_ne_zero, one_ne_zero]
    by_cases hy : √(∑ i, (z i / normL1 z) ^ 2) = 0
    · simp only [hy, if_true, py]
      exact ⟨_, rfl, hff _ (by frame_tac)⟩
    simp only [hy, if_false, py, h.mat, h.matAt, exact_mv, loc_add, loc_left, loc_right, Nat.reduceAdd, Nat.reduceEqDiff, OfNat.ofNat_ne_zero, one_ne_zero, lt_ne b1, lt_ne_add b1]
    exact ⟨_, _, rfl, h.done (by frame_tac) le_rfl (by simp only [py, loc_add, loc_left, loc_right, Nat.reduceAdd, Nat.reduceEqDiff, OfNat.ofNat_ne_zero, one_ne_zero])⟩
  have c1' : ¬ normL1 ((fun i => z i / normL1 z) - x) ≤ tol := c1
  simp only [c1, c1', if_false, false_or, py, h.norm, h.opt, o1, o3, h.xAt, h.mat, h.matAt, exact_mv, cmp_le_tol ht, loc_add, loc_left, loc_right, Nat.reduceAdd, Nat.reduceEqDiff, OfNat.ofNat_ne_zero, one_ne_zero, lt_ne h1, lt_ne_add h1, lt_ne b1, lt_ne_add b1, lt_ne b2, lt_ne_add b2]
  by_cases c2 : (normL1 fun i => Arith.exact.add (z i / normL1 z) (x i)) ≤ tol
  · have c2' : normL1 ((fun i => z i / normL1 z) + x) ≤ tol := c2
    simp only [c2, c2', if_true, true_or, py, h.np, arrUnit, arrDiv, loc_add, loc_left, loc_right, Nat.reduceAdd, Nat.reduceEqDiff, OfNat.ofNat_ne_zero, one_ne_zero]
    by_cases hy : √(∑ i, (z i / normL1 z) ^ 2) = 0
    · simp only [hy, if_true, py]
      exact ⟨_, rfl, hff _ (by frame_tac)⟩
    simp only [hy, if_false, py, h.mat, h.matAt, exact_mv, loc_add, loc_left, loc_right, Nat.reduceAdd, Nat.reduceEqDiff, OfNat.ofNat_ne_zero, one_ne_zero, lt_ne b1, lt_ne_add b1]
    exact ⟨_, _, rfl, h.done (by frame_tac) le_rfl (by simp only [py, loc_add, loc_left, loc_right, Nat.reduceAdd, Nat.reduceEqDiff, OfNat.ofNat_ne_zero, one_ne_zero])⟩
  have c2' : ¬ normL1 ((fun i => z i / normL1 z) + x) ≤ tol := c2
  simp only [c2, c2', if_false, py]
  exact ⟨_, _, st.next, rfl, h.step (by frame_tac) (by simp only [py]) (by simp only [py, loc_add, loc_left, loc_right, Nat.reduceAdd, Nat.reduceEqDiff, OfNat.ofNat_ne_zero, one_ne_zero]) le_rfl (by simp only [py]; omega) (by simp only [py]; simp), hn⟩

theorem p4_loop (ht : vt.toReal = some tol) (left niter : ℕ) (hN : niter + left = N) (h : PowAt st0 lA lo lx m N vt arg env st l x) (hl : if niter = 0 then l = lx else st0.next ≤ l) :
    PowOut st0 lx (powerLoop4 m ⟨N, tol⟩ arg left niter x)
      (((loop (turn (pmach ext) (call (pmach ext) (fuel + 2)) (.name "niter") (loopBody Source.PowerIteration.power_iteration4.body)) (intsFrom niter left) env st).bind
        (after (pmach ext) (call (pmach ext) (fuel + 2)) (afterFor Source.PowerIteration.power_iteration4.body))).bind result) := by
  induction left generalizing niter st env l x with
  | zero =>
    obtain ⟨attrs, o1, o2, o3⟩ := h.optAt.at_
    have h1 := h.xlt
    have hn := h.frame.next
    have h2 := h.ltA
    have h3 := h.lto
    have h4 := h.ltx
    have b1 : lA < st.next := by omega
    have b2 : lo < st.next := by omega
    have n1 : (lA = l) = False := by
      simp only [eq_iff_iff, iff_false]; rintro rfl
      have := h.matAt.symm.trans h.xAt; simp at this
    have n2 : (lo = l) = False := by
      simp only [eq_iff_iff, iff_false]; rintro rfl
      have := o1.symm.trans h.xAt; simp at this
    simp only [ints_zero, afterFor, Source.PowerIteration.power_iteration4, py, h.var, h.xAt, h.np, exact_mv, loc_add, loc_left, loc_right, Nat.reduceAdd, Nat.reduceEqDiff, OfNat.ofNat_ne_zero, one_ne_zero, lt_ne h1, lt_ne_add h1, lt_ne b1, lt_ne_add b1, lt_ne b2, lt_ne_add b2, powerLoop4, arrUnit, arrDiv]
    by_cases hz : √(∑ i, x i ^ 2) = 0
    · simp only [hz, if_true, py]
      exact ⟨_, rfl, h.frame.alloc _⟩
    simp only [hz, if_false, py, h.xAt, h.mat, h.matAt, h.opt, o1, o2, n1, n2, exact_mv, loc_add, loc_left, loc_right, Nat.reduceAdd, Nat.reduceEqDiff, OfNat.ofNat_ne_zero, one_ne_zero, lt_ne h1, lt_ne_add h1, lt_ne b1, lt_ne_add b1, lt_ne b2, lt_ne_add b2]
    have hs : l = lx ∨ st0.next ≤ l := h.new
    refine ⟨_, l, rfl, hs, by simp only [py, lt_ne_add h1], ?_, ((h.frame.alloc _).put _ hs).alloc _⟩
    split_ifs at hl ⊢ with hz
    · subst hl; simp only [py, lt_ne_add h1]
    · have n3 : (lx = l) = False := by simp only [eq_iff_iff, iff_false]; omega
      have b3 : lx < st.next := by omega
      simp only [py, lt_ne_add b3, lt_ne b3, n3, h.arg]
  | succ k ih =>
    have hi := p4_turn (ext := ext) (fuel := fuel) ht h niter
    simp only [ints_succ, powerLoop4]
    generalize turn (pmach ext) (call (pmach ext) (fuel + 2)) (.name "niter") (loopBody Source.PowerIteration.power_iteration4.body) = T at hi ih ⊢
    rcases hr : arrDiv (m *ᵥ x) (normL1 (m *ᵥ x)) with f | y <;> rw [hr] at hi <;> dsimp only at hi ⊢
    · obtain ⟨st', e, hf⟩ := hi
      simp only [loop, bind_apply, e, py]
      exact ⟨st', rfl, hf⟩
    split_ifs at hi ⊢ with hc
    · rcases hu : arrUnit y with f | u <;> rw [hu] at hi <;> dsimp only at hi ⊢
      · obtain ⟨st', e, hf⟩ := hi
        simp only [loop, bind_apply, e, py]
        exact ⟨st', rfl, hf⟩
      obtain ⟨st', l', e, hl, hy, ha, hf⟩ := hi
      simp only [loop, bind_apply, e, py]
      exact ⟨st', l', rfl, .inr hl, hy, ha, hf⟩
    · obtain ⟨st', env', l', e, h', hl'⟩ := hi
      simp only [loop, bind_apply, e, py]
      have hh := ih (niter + 1) (by omega) h' (by simpa using hl')
      rw [rbind_assoc] at hh
      exact hh

/-- `power_iteration4(A, x, options)`. -/
theorem call_power4 (ht : vt.toReal = some tol) (h : PowArgs st lA lo lx m N vt x) :
    PowOut st lx (powerIteration4 m x ⟨N, tol⟩) (call (pmach ext) (fuel + 3) (.glob "power_iteration4") [.ref lA, .ref lx, .ref lo] st) := by
  rw [call_fun (f := Source.PowerIteration.power_iteration4) rfl rfl]
  obtain ⟨attrs, o1, o2, o3⟩ := h.optAt.at_
  obtain ⟨n1, n2⟩ := h.ne
  have b1 := h.ltx
  have b2 := h.ltA
  have b3 := h.lto
  simp only [Source.PowerIteration.power_iteration4, py, h.xAt, loc_add, loc_left, loc_right, Nat.reduceAdd, Nat.reduceEqDiff, OfNat.ofNat_ne_zero, one_ne_zero, lt_ne b1, lt_ne_add b1, powerIteration4, arrDiv]
  by_cases hz : normL1 x = 0
  · simp only [hz, if_true, py]
    exact ⟨_, rfl, (Frame.refl _ _).alloc _⟩
  simp only [hz, if_false, py, o1, o2, n1, n2, loc_add, loc_left, loc_right, Nat.reduceAdd, Nat.reduceEqDiff, OfNat.ofNat_ne_zero, one_ne_zero, lt_ne b3, lt_ne_add b3]
  have h' : PowAt st lA lo lx m N vt (fun i => x i / normL1 x) ((((Env.empty.set "A" (.ref lA)).set "x" (.ref lx)).set "options" (.ref lo)).set "x" (.ref lx))
      ((st.alloc (.vec (n + 1) fun i => |x i|)).put lx (.vec (n + 1) fun i => x i / normL1 x)) lx (fun i => x i / normL1 x) :=
    ⟨by simp only [py], by simp only [py], by simp only [py]; omega, .inl rfl, by simp only [py], b1, by simp only [py], by simp only [py, n1, lt_ne b2, h.matAt], b2, by simp only [py],
      h.optAt.mono (by simp only [py, n2, lt_ne b3]), b3, by simp only [py], by simp only [py], ((Frame.refl _ _).alloc _).put _ (.inl rfl)⟩
  have hh := p4_loop (ext := ext) (fuel := fuel) ht N 0 (Nat.zero_add _) h' (by simp)
  rw [rbind_assoc] at hh
  exact hh

/-- The local variables at the head of the loops of `power_iteration2` and `power_iteration3`; `x` is the array of the caller all the time. -/
structure PowQAt (st0 : St W) (lA lo lx : ℕ) (m : Mat n) (N : ℕ) (vt : Val) (env : Env) (st : St W) (x new : Vec n) (ld : ℝ) : Prop where
  var : env "x" = some (.ref lx)
  xAt : st.heap lx = some (.vec n x)
  ltx : lx < st0.next
  newAt : ∃ l, env "new" = some (.ref l) ∧ st.heap l = some (.vec n new) ∧ l < st.next ∧ st0.next ≤ l
  ldAt : env "ld" = some (.num ld)
  mat : env "A" = some (.ref lA)
  matAt : st.heap lA = some (.mat n n (Matrix.of.symm m))
  ltA : lA < st0.next
  opt : env "options" = some (.ref lo)
  optAt : PowOpt st lo N vt
  lto : lo < st0.next
  np : env "np" = none
  abs : env "abs" = none
  frame : Frame (· = lx) st0 st

theorem PowQAt.ne {new : Vec n} {ld : ℝ} {m : Mat n} {x : Vec n} (h : PowQAt st0 lA lo lx m N vt env st x new ld) : (lA = lx) = False ∧ (lo = lx) = False := by
  obtain ⟨attrs, o1, -, -⟩ := h.optAt.at_
  constructor <;> simp only [eq_iff_iff, iff_false] <;> rintro rfl
  · have := h.matAt.symm.trans h.xAt; simp at this
  · have := o1.symm.trans h.xAt; simp at this

theorem PowQAt.step {st' : St W} {env' : Env} {l' : ℕ} {m : Mat n} {x new y new' : Vec n} {ld ld' : ℝ} (h : PowQAt st0 lA lo lx m N vt env st x new ld)
    (hf : Frame (· = lx) st st') (hx : env' "x" = some (.ref lx)) (hy : st'.heap lx = some (.vec n y)) (hn : env' "new" = some (.ref l')) (hn' : st'.heap l' = some (.vec n new'))
    (h1 : st.next ≤ l') (h2 : l' < st'.next) (hl : env' "ld" = some (.num ld'))
    (he : env' "A" = env "A" ∧ env' "options" = env "options" ∧ env' "np" = env "np" ∧ env' "abs" = env "abs") : PowQAt st0 lA lo lx m N vt env' st' y new' ld' := by
  have n1 : lA ≠ lx := fun e => by simpa [e] using h.ne.1
  have n2 : lo ≠ lx := fun e => by simpa [e] using h.ne.2
  have hnn := h.frame.next
  have h2' := h.ltA
  have h3 := h.lto
  exact ⟨hx, hy, h.ltx, ⟨l', hn, hn', h2, hnn.trans h1⟩, hl, he.1.trans h.mat, (hf.same _ (by omega) n1).trans h.matAt, h.ltA, he.2.1.trans h.opt, h.optAt.mono (hf.same _ (by omega) n2), h.lto,
    he.2.2.1.trans h.np, he.2.2.2.trans h.abs, h.frame.trans hf⟩

theorem p2_turn {new : Vec (n + 1)} {ld : ℝ} (ht : vt.toReal = some tol) (h : PowQAt st0 lA lo lx m N vt env st x new ld) (k : ℤ) :
    match arrUnit new with
    | .error f => ∃ st', turn (pmach ext) (call (pmach ext) (fuel + 2)) (.name "niter") (loopBody Source.PowerIteration.power_iteration2.body) (.int k) env st = .exc (excOf f) st' ∧ Frame (· = lx) st0 st'
    | .ok y =>
      if |ld - y ⬝ᵥ (m *ᵥ y)| ≤ tol then
        ∃ st', turn (pmach ext) (call (pmach ext) (fuel + 2)) (.name "niter") (loopBody Source.PowerIteration.power_iteration2.body) (.int k) env st
            = .ok (.ret (.tuple [.ref lx, .num (y ⬝ᵥ (m *ᵥ y)), .int k])) st'
          ∧ st'.heap lx = some (.vec (n + 1) y) ∧ Frame (· = lx) st0 st'
      else ∃ st' env', turn (pmach ext) (call (pmach ext) (fuel + 2)) (.name "niter") (loopBody Source.PowerIteration.power_iteration2.body) (.int k) env st = .ok (.next env') st'
          ∧ PowQAt st0 lA lo lx m N vt env' st' y (m *ᵥ y) (y ⬝ᵥ (m *ᵥ y)) := by
  have hn := h.frame.next
  have h2 := h.ltA
  have h3 := h.lto
  have h4 := h.ltx
  obtain ⟨l, d1, d2, d3, d4⟩ := h.newAt
  obtain ⟨attrs, o1, o2, o3⟩ := h.optAt.at_
  have b1 : lA < st.next := by omega
  have b2 : lo < st.next := by omega
  have b3 : lx < st.next := by omega
  have n1 : (lA = lx) = False := by
    simp only [eq_iff_iff, iff_false]; rintro rfl
    have := h.matAt.symm.trans h.xAt; simp at this
  have n2 : (lo = lx) = False := by
    simp only [eq_iff_iff, iff_false]; rintro rfl
    have := o1.symm.trans h.xAt; simp at this
  simp only [loopBody, Source.PowerIteration.power_iteration2]
  simp only [py, h.var, h.xAt, d1, d2, h.ldAt, h.mat, h.matAt, h.np, h.abs, exact_mv, n1, n2, loc_add, loc_left, loc_right, Nat.reduceAdd, Nat.reduceEqDiff, OfNat.ofNat_ne_zero, one_ne_zero, lt_ne d3, lt_ne_add d3, lt_ne b3, lt_ne_add b3, lt_ne b1, lt_ne_add b1, lt_ne b2, lt_ne_add b2, arrUnit, arrDiv]
  by_cases hz : √(∑ i, new i ^ 2) = 0
  · simp only [hz, if_true, py]
    exact ⟨_, rfl, ((h.frame.alloc _).put _ (.inl rfl)).alloc _⟩
  simp only [hz, if_false, py, h.var, h.xAt, d1, d2, h.ldAt, h.mat, h.matAt, h.np, h.abs, h.opt, o1, o3, cmp_le_tol ht, exact_mv, n1, n2, loc_add, loc_left, loc_right, Nat.reduceAdd, Nat.reduceEqDiff, OfNat.ofNat_ne_zero, one_ne_zero, lt_ne d3, lt_ne_add d3, lt_ne b3, lt_ne_add b3, lt_ne b1, lt_ne_add b1, lt_ne b2, lt_ne_add b2]
  by_cases c : |Arith.exact.sub ld ((fun i => new i / √(∑ i, new i ^ 2)) ⬝ᵥ m *ᵥ fun i => new i / √(∑ i, new i ^ 2))| ≤ tol
  · have c' : |ld - (fun i => new i / √(∑ i, new i ^ 2)) ⬝ᵥ m *ᵥ fun i => new i / √(∑ i, new i ^ 2)| ≤ tol := c
    simp only [c, c', if_true]
    exact ⟨_, rfl, by simp only [py, lt_ne b3, lt_ne_add b3], h.frame.trans (by frame_tac)⟩
  · have c' : ¬ |ld - (fun i => new i / √(∑ i, new i ^ 2)) ⬝ᵥ m *ᵥ fun i => new i / √(∑ i, new i ^ 2)| ≤ tol := c
    simp only [c, c', if_false]
    exact ⟨_, _, rfl, h.step (l' := st.next + 2) (by frame_tac) (by simp only [py]) (by simp only [py, lt_ne b3, lt_ne_add b3]) (by simp only [py]) (by simp only [py, loc_add, loc_left, loc_right, Nat.reduceAdd, Nat.reduceEqDiff, OfNat.ofNat_ne_zero, one_ne_zero]) (by omega) (by simp only [py]; omega) (by simp only [py])
      (by simp only [py]; simp)⟩

theorem p2_loop {new : Vec (n + 1)} {ld : ℝ} (ht : vt.toReal = some tol) (left niter : ℕ) (hN : niter + left = N) (h : PowQAt st0 lA lo lx m N vt env st x new ld) :
    PowOut st0 lx (powerLoop2 m ⟨N, tol⟩ left niter x new ld)
      (((loop (turn (pmach ext) (call (pmach ext) (fuel + 2)) (.name "niter") (loopBody Source.PowerIteration.power_iteration2.body)) (intsFrom niter left) env st).bind
        (after (pmach ext) (call (pmach ext) (fuel + 2)) (afterFor Source.PowerIteration.power_iteration2.body))).bind result) := by
  induction left generalizing niter st env x new ld with
  | zero =>
    obtain ⟨attrs, o1, o2, o3⟩ := h.optAt.at_
    simp only [ints_zero, afterFor, Source.PowerIteration.power_iteration2, py, h.var, h.ldAt, h.opt, o1, o2, powerLoop2]
    exact ⟨_, lx, rfl, .inl rfl, h.xAt, h.xAt, h.frame⟩
  | succ k ih =>
    have hi := p2_turn (ext := ext) (fuel := fuel) ht h niter
    simp only [ints_succ, powerLoop2]
    generalize turn (pmach ext) (call (pmach ext) (fuel + 2)) (.name "niter") (loopBody Source.PowerIteration.power_iteration2.body) = T at hi ih ⊢
    rcases hr : arrUnit new with f | y <;> rw [hr] at hi <;> dsimp only at hi ⊢
    · obtain ⟨st', e, hf⟩ := hi
      simp only [loop, bind_apply, e, py]
      exact ⟨st', rfl, hf⟩
    split_ifs at hi ⊢ with hc
    · obtain ⟨st', e, hy, hf⟩ := hi
      simp only [loop, bind_apply, e, py]
      exact ⟨st', lx, rfl, .inl rfl, hy, hy, hf⟩
    · obtain ⟨st', env', e, h'⟩ := hi
      simp only [loop, bind_apply, e, py]
      have hh := ih (niter + 1) (by omega) h'
      rw [rbind_assoc] at hh
      exact hh

/-- `power_iteration2(A, x, options)`. -/
theorem call_power2 (ht : vt.toReal = some tol) (h : PowArgs st lA lo lx m N vt x) :
    PowOut st lx (powerIteration2 m x ⟨N, tol⟩) (call (pmach ext) (fuel + 3) (.glob "power_iteration2") [.ref lA, .ref lx, .ref lo] st) := by
  rw [call_fun (f := Source.PowerIteration.power_iteration2) rfl rfl]
  obtain ⟨attrs, o1, o2, o3⟩ := h.optAt.at_
  obtain ⟨n1, n2⟩ := h.ne
  have b1 := h.ltx
  have b2 := h.ltA
  have b3 := h.lto
  simp only [Source.PowerIteration.power_iteration2, py, h.xAt, loc_add, loc_left, loc_right, Nat.reduceAdd, Nat.reduceEqDiff, OfNat.ofNat_ne_zero, one_ne_zero, lt_ne b1, lt_ne_add b1, powerIteration2, arrUnit, arrDiv]
  by_cases hz : √(∑ i, x i ^ 2) = 0
  · simp only [hz, if_true, py]
    exact ⟨_, rfl, (Frame.refl _ _).alloc _⟩
  simp only [hz, if_false, py, h.matAt, exact_mv, o1, o2, n1, n2, loc_add, loc_left, loc_right, Nat.reduceAdd, Nat.reduceEqDiff, OfNat.ofNat_ne_zero, one_ne_zero, lt_ne b1, lt_ne_add b1, lt_ne b2, lt_ne_add b2, lt_ne b3, lt_ne_add b3]
  have h' : PowQAt st lA lo lx m N vt ((((((Env.empty.set "A" (.ref lA)).set "x" (.ref lx)).set "options" (.ref lo)).set "x" (.ref lx)).set "new" (.ref (st.next + 1))).set "ld"
        (.num ((fun i => x i / √(∑ i, x i ^ 2)) ⬝ᵥ m *ᵥ fun i => x i / √(∑ i, x i ^ 2))))
      (((st.alloc (.vec (n + 1) fun i => x i * x i)).put lx (.vec (n + 1) fun i => x i / √(∑ i, x i ^ 2))).alloc (.vec (n + 1) (m *ᵥ fun i => x i / √(∑ i, x i ^ 2))))
      (fun i => x i / √(∑ i, x i ^ 2)) (m *ᵥ fun i => x i / √(∑ i, x i ^ 2)) ((fun i => x i / √(∑ i, x i ^ 2)) ⬝ᵥ m *ᵥ fun i => x i / √(∑ i, x i ^ 2)) :=
    ⟨by simp only [py], by simp only [py, lt_ne b1, lt_ne_add b1], b1, ⟨st.next + 1, by simp only [py], by simp only [py], by simp only [py]; omega, by omega⟩, by simp only [py], by simp only [py],
      by simp only [py, n1, lt_ne b2, lt_ne_add b2, h.matAt], b2, by simp only [py], h.optAt.mono (by simp only [py, n2, lt_ne b3, lt_ne_add b3]), b3, by simp only [py], by simp only [py], by frame_tac⟩
  have hh := p2_loop (ext := ext) (fuel := fuel) ht N 0 (Nat.zero_add _) h'
  rw [rbind_assoc] at hh
  exact hh

theorem p3_turn {new : Vec (n + 1)} {ld : ℝ} (ht : vt.toReal = some tol) (h : PowQAt st0 lA lo lx m N vt env st x new ld) (k : ℤ) :
    if 1e150 ≤ new ⬝ᵥ new then
      match arrUnit new with
      | .error f => ∃ st', turn (pmach ext) (call (pmach ext) (fuel + 2)) (.name "niter") (loopBody Source.PowerIteration.power_iteration3.body) (.int k) env st = .exc (excOf f) st' ∧ Frame (· = lx) st0 st'
      | .ok y =>
        if |ld - y ⬝ᵥ (m *ᵥ y)| ≤ tol then
          ∃ st', turn (pmach ext) (call (pmach ext) (fuel + 2)) (.name "niter") (loopBody Source.PowerIteration.power_iteration3.body) (.int k) env st = .ok (.ret (.tuple [.ref lx, .num (y ⬝ᵥ (m *ᵥ y)), .int k])) st'
            ∧ st'.heap lx = some (.vec (n + 1) y) ∧ Frame (· = lx) st0 st'
        else ∃ st' env', turn (pmach ext) (call (pmach ext) (fuel + 2)) (.name "niter") (loopBody Source.PowerIteration.power_iteration3.body) (.int k) env st = .ok (.next env') st'
            ∧ PowQAt st0 lA lo lx m N vt env' st' y (m *ᵥ y) (y ⬝ᵥ (m *ᵥ y))
    else
      match pdiv (new ⬝ᵥ (m *ᵥ new)) (new ⬝ᵥ new) with
      | .error f => ∃ st', turn (pmach ext) (call (pmach ext) (fuel + 2)) (.name "niter") (loopBody Source.PowerIteration.power_iteration3.body) (.int k) env st = .exc (excOf f) st' ∧ Frame (· = lx) st0 st'
      | .ok q =>
        if |ld - q| ≤ tol then
          match arrUnit new with
          | .error f => ∃ st', turn (pmach ext) (call (pmach ext) (fuel + 2)) (.name "niter") (loopBody Source.PowerIteration.power_iteration3.body) (.int k) env st = .exc (excOf f) st' ∧ Frame (· = lx) st0 st'
          | .ok y => ∃ st', turn (pmach ext) (call (pmach ext) (fuel + 2)) (.name "niter") (loopBody Source.PowerIteration.power_iteration3.body) (.int k) env st = .ok (.ret (.tuple [.ref lx, .num q, .int k])) st'
            ∧ st'.heap lx = some (.vec (n + 1) y) ∧ Frame (· = lx) st0 st'
        else ∃ st' env', turn (pmach ext) (call (pmach ext) (fuel + 2)) (.name "niter") (loopBody Source.PowerIteration.power_iteration3.body) (.int k) env st = .ok (.next env') st'
            ∧ PowQAt st0 lA lo lx m N vt env' st' new (m *ᵥ new) q := by
  have hn := h.frame.next
  have h2 := h.ltA
  have h3 := h.lto
  have h4 := h.ltx
  obtain ⟨l, d1, d2, d3, d4⟩ := h.newAt
  obtain ⟨attrs, o1, o2, o3⟩ := h.optAt.at_
  have b1 : lA < st.next := by omega
  have b2 : lo < st.next := by omega
  have b3 : lx < st.next := by omega
  obtain ⟨n1, n2⟩ := h.ne
  simp only [loopBody, Source.PowerIteration.power_iteration3]
  simp only [py, h.var, h.xAt, d1, d2, h.ldAt, h.mat, h.matAt, h.np, h.abs, h.opt, o1, o3, cmp_le_tol ht, exact_mv, n1, n2, loc_add, loc_left, loc_right, Nat.reduceAdd, Nat.reduceEqDiff, OfNat.ofNat_ne_zero, one_ne_zero, lt_ne d3, lt_ne_add d3, lt_ne b3, lt_ne_add b3, lt_ne b1, lt_ne_add b1, lt_ne b2, lt_ne_add b2]
  have hlit : literal Arith.exact 1 150 true = 1e150 := by norm_num [literal, Arith.exact]
  simp only [hlit, ge_iff_le]
  by_cases hd : 1e150 ≤ new ⬝ᵥ new
  · simp only [hd, if_true, arrUnit, arrDiv]
    by_cases hz : √(∑ i, new i ^ 2) = 0
    · simp only [hz, if_true]
      exact ⟨_, rfl, h.frame.trans (by frame_tac)⟩
    simp only [hz, if_false]
    by_cases c : |Arith.exact.sub ld ((fun i => new i / √(∑ i, new i ^ 2)) ⬝ᵥ m *ᵥ fun i => new i / √(∑ i, new i ^ 2))| ≤ tol
    · have c' : |ld - (fun i => new i / √(∑ i, new i ^ 2)) ⬝ᵥ m *ᵥ fun i => new i / √(∑ i, new i ^ 2)| ≤ tol := c
      simp only [c, c', if_true]
      exact ⟨_, rfl, by simp only [py, lt_ne b3, lt_ne_add b3], h.frame.trans (by frame_tac)⟩
    · have c' : ¬ |ld - (fun i => new i / √(∑ i, new i ^ 2)) ⬝ᵥ m *ᵥ fun i => new i / √(∑ i, new i ^ 2)| ≤ tol := c
      simp only [c, c', if_false]
      exact ⟨_, _, rfl, h.step (l' := st.next + 2) (by frame_tac) (by simp only [py]) (by simp only [py, lt_ne b3, lt_ne_add b3]) (by simp only [py]) (by simp only [py, loc_add, loc_left, loc_right, Nat.reduceAdd, Nat.reduceEqDiff, OfNat.ofNat_ne_zero, one_ne_zero]) (by omega) (by simp only [py]; omega) (by simp only [py])
        (by simp only [py]; simp)⟩
  · simp only [hd, if_false, pdiv]
    by_cases hz : new ⬝ᵥ new = 0
    · simp only [hz, if_true]
      exact ⟨_, rfl, h.frame.trans (by frame_tac)⟩
    simp only [hz, if_false]
    by_cases c : |Arith.exact.sub ld (Arith.exact.div (new ⬝ᵥ m *ᵥ new) (new ⬝ᵥ new))| ≤ tol
    · have c' : |ld - (new ⬝ᵥ m *ᵥ new) / (new ⬝ᵥ new)| ≤ tol := c
      simp only [c, c', if_true, arrUnit, arrDiv]
      by_cases hy : √(∑ i, new i ^ 2) = 0
      · simp only [hy, if_true]
        exact ⟨_, rfl, h.frame.trans (by frame_tac)⟩
      simp only [hy, if_false]
      exact ⟨_, rfl, by simp only [py], h.frame.trans (by frame_tac)⟩
    · have c' : ¬ |ld - (new ⬝ᵥ m *ᵥ new) / (new ⬝ᵥ new)| ≤ tol := c
      simp only [c, c', if_false]
      exact ⟨_, _, rfl, h.step (l' := st.next + 1) (by frame_tac) (by simp only [py, h.var]) (by simp only [py, lt_ne b3, lt_ne_add b3]) (by simp only [py]) (by simp only [py, loc_add, loc_left, loc_right, Nat.reduceAdd, Nat.reduceEqDiff, OfNat.ofNat_ne_zero, one_ne_zero]) (by omega) (by simp only [py]; omega) (by simp only [py]; rfl)
        (by simp only [py]; simp)⟩

theorem p3_loop {new : Vec (n + 1)} {ld : ℝ} (ht : vt.toReal = some tol) (left niter : ℕ) (hN : niter + left = N) (h : PowQAt st0 lA lo lx m N vt env st x new ld) :
    PowOut st0 lx (powerLoop3 m ⟨N, tol⟩ left niter x new ld)
      (((loop (turn (pmach ext) (call (pmach ext) (fuel + 2)) (.name "niter") (loopBody Source.PowerIteration.power_iteration3.body)) (intsFrom niter left) env st).bind
        (after (pmach ext) (call (pmach ext) (fuel + 2)) (afterFor Source.PowerIteration.power_iteration3.body))).bind result) := by
  induction left generalizing niter st env x new ld with
  | zero =>
    obtain ⟨attrs, o1, o2, o3⟩ := h.optAt.at_
    have hn := h.frame.next
    have h3 := h.lto
    have h4 := h.ltx
    obtain ⟨n1, n2⟩ := h.ne
    have b2 : lo < st.next := by omega
    have b3 : lx < st.next := by omega
    simp only [ints_zero, afterFor, Source.PowerIteration.power_iteration3, py, h.var, h.xAt, h.np, loc_add, loc_left, loc_right, Nat.reduceAdd, Nat.reduceEqDiff, OfNat.ofNat_ne_zero, one_ne_zero, lt_ne b3, lt_ne_add b3, powerLoop3, arrUnit, arrDiv]
    by_cases hz : √(∑ i, x i ^ 2) = 0
    · simp only [hz, if_true, py]
      exact ⟨_, rfl, h.frame.alloc _⟩
    simp only [hz, if_false, py, h.ldAt, h.opt, o1, o2, n2, loc_add, loc_left, loc_right, Nat.reduceAdd, Nat.reduceEqDiff, OfNat.ofNat_ne_zero, one_ne_zero, lt_ne b2, lt_ne_add b2]
    exact ⟨_, lx, rfl, .inl rfl, by simp only [py], by simp only [py], (h.frame.alloc _).put _ (.inl rfl)⟩
  | succ k ih =>
    have hi := p3_turn (ext := ext) (fuel := fuel) ht h niter
    simp only [ints_succ, powerLoop3]
    generalize turn (pmach ext) (call (pmach ext) (fuel + 2)) (.name "niter") (loopBody Source.PowerIteration.power_iteration3.body) = T at hi ih ⊢
    split_ifs at hi ⊢ with hd
    · rcases hr : arrUnit new with f | y <;> rw [hr] at hi <;> dsimp only at hi ⊢
      · obtain ⟨st', e, hf⟩ := hi
        simp only [loop, bind_apply, e, py]
        exact ⟨st', rfl, hf⟩
      split_ifs at hi ⊢ with hc
      · obtain ⟨st', e, hy, hf⟩ := hi
        simp only [loop, bind_apply, e, py]
        exact ⟨st', lx, rfl, .inl rfl, hy, hy, hf⟩
      · obtain ⟨st', env', e, h'⟩ := hi
        simp only [loop, bind_apply, e, py]
        have hh := ih (niter + 1) (by omega) h'
        rw [rbind_assoc] at hh
        exact hh
    · rcases hr : pdiv (new ⬝ᵥ (m *ᵥ new)) (new ⬝ᵥ new) with f | q <;> rw [hr] at hi <;> dsimp only at hi ⊢
      · obtain ⟨st', e, hf⟩ := hi
        simp only [loop, bind_apply, e, py]
        exact ⟨st', rfl, hf⟩
      split_ifs at hi ⊢ with hc
      · rcases hu : arrUnit new with f | y <;> rw [hu] at hi <;> dsimp only at hi ⊢
        · obtain ⟨st', e, hf⟩ := hi
          simp only [loop, bind_apply, e, py]
          exact ⟨st', rfl, hf⟩
        obtain ⟨st', e, hy, hf⟩ := hi
        simp only [loop, bind_apply, e, py]
        exact ⟨st', lx, rfl, .inl rfl, hy, hy, hf⟩
      · obtain ⟨st', env', e, h'⟩ := hi
        simp only [loop, bind_apply, e, py]
        have hh := ih (niter + 1) (by omega) h'
        rw [rbind_assoc] at hh
        exact hh

/-- `power_iteration3(A, x, options)`. -/
theorem call_power3 (ht : vt.toReal = some tol) (h : PowArgs st lA lo lx m N vt x) :
    PowOut st lx (powerIteration3 m x ⟨N, tol⟩) (call (pmach ext) (fuel + 3) (.glob "power_iteration3") [.ref lA, .ref lx, .ref lo] st) := by
  rw [call_fun (f := Source.PowerIteration.power_iteration3) rfl rfl]
  obtain ⟨attrs, o1, o2, o3⟩ := h.optAt.at_
  obtain ⟨n1, n2⟩ := h.ne
  have b1 := h.ltx
  have b2 := h.ltA
  have b3 := h.lto
  simp only [Source.PowerIteration.power_iteration3, py, h.xAt, h.matAt, exact_mv, loc_add, loc_left, loc_right, Nat.reduceAdd, Nat.reduceEqDiff, OfNat.ofNat_ne_zero, one_ne_zero, lt_ne b1, lt_ne_add b1, lt_ne b2, lt_ne_add b2, powerIteration3, pdiv]
  by_cases hz : x ⬝ᵥ x = 0
  · simp only [hz, if_true, py]
    exact ⟨_, rfl, (Frame.refl _ _).alloc _⟩
  simp only [hz, if_false, py, o1, o2, n1, n2, loc_add, loc_left, loc_right, Nat.reduceAdd, Nat.reduceEqDiff, OfNat.ofNat_ne_zero, one_ne_zero, lt_ne b1, lt_ne_add b1, lt_ne b2, lt_ne_add b2, lt_ne b3, lt_ne_add b3]
  have h' : PowQAt st lA lo lx m N vt ((((((Env.empty.set "A" (.ref lA)).set "x" (.ref lx)).set "options" (.ref lo)).set "new" (.ref st.next)).set "dot" (.num (x ⬝ᵥ x))).set "ld"
        (.num (Arith.exact.div (x ⬝ᵥ m *ᵥ x) (x ⬝ᵥ x)))) (st.alloc (.vec (n + 1) (m *ᵥ x))) x (m *ᵥ x) ((x ⬝ᵥ m *ᵥ x) / (x ⬝ᵥ x)) :=
    ⟨by simp only [py], by simp only [py, h.xAt, lt_ne b1], b1, ⟨st.next, by simp only [py], by simp only [py], by simp only [py]; omega, le_rfl⟩, by simp only [py]; rfl, by simp only [py],
      by simp only [py, n1, lt_ne b2, lt_ne_add b2, h.matAt], b2, by simp only [py], h.optAt.mono (by simp only [py, n2, lt_ne b3, lt_ne_add b3]), b3, by simp only [py], by simp only [py], by frame_tac⟩
  have hh := p3_loop (ext := ext) (fuel := fuel) ht N 0 (Nat.zero_add _) h'
  rw [rbind_assoc] at hh
  exact hh

end

end Ellalgo.Py
