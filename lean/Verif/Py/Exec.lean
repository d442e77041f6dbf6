import Verif.Py.Attr
import Verif.Py.Semantics

/-!
# Rules for running Python programs symbolically

`simp only [py, ...]` runs a program from the first statement on. The rules are about computations applied to a state, so that the rest of a program is looked at only when its turn has come.
-/

namespace Ellalgo.Py

variable {W α β γ : Type} {st : St W}

/-! ### Sequencing -/

/-- Go on with the result. -/
def Res.bind (r : Res W α) (f : α → M W β) : Res W β :=
  match r with
  | .ok a st => f a st
  | .exc e st => .exc e st
  | .stuck => .stuck

@[py ↓] theorem bind_apply (m : M W α) (f : α → M W β) : M.bind m f st = (m st).bind f := rfl
@[py ↓] theorem pure_apply (a : α) : M.pure a st = .ok a st := rfl
@[py ↓] theorem exc_apply (e : String) : (M.exc e : M W α) st = .exc e st := rfl
@[py ↓] theorem stuck_apply : (M.stuck : M W α) st = .stuck := rfl
@[py ↓] theorem rbind_ok (a : α) (f : α → M W β) : (Res.ok a st).bind f = f a st := rfl
@[py ↓] theorem rbind_exc (e : String) (f : α → M W β) : (Res.exc e st).bind f = .exc e st := rfl
@[py ↓] theorem rbind_stuck (f : α → M W β) : (Res.stuck : Res W α).bind f = .stuck := rfl
@[py] theorem rbind_ite (c : Prop) [Decidable c] (a b : Res W α) (f : α → M W β) :
    (if c then a else b).bind f = if c then a.bind f else b.bind f := by split <;> rfl
@[py ↓] theorem rbind_assoc (r : Res W α) (f : α → M W β) (g : β → M W γ) :
    (r.bind f).bind g = r.bind fun a => M.bind (f a) g := by cases r <;> rfl
@[congr] theorem rbind_congr {r r' : Res W α} {f : α → M W β} (h : r = r') : r.bind f = r'.bind f := by rw [h]
@[py ↓] theorem ite_st (c : Prop) [Decidable c] (a b : M W α) : (if c then a else b) st = if c then a st else b st := by split <;> rfl

/-- Go on after an exception. -/
def Res.catch (r : Res W α) (h : String → M W α) : Res W α :=
  match r with
  | .ok a st => .ok a st
  | .exc e st => h e st
  | .stuck => .stuck

@[py ↓] theorem catch_apply (m : M W α) (h : String → M W α) : M.catch m h st = (m st).catch h := rfl
@[py ↓] theorem catch_ok (a : α) (h : String → M W α) : (Res.ok a st).catch h = .ok a st := rfl
@[py ↓] theorem catch_exc (e : String) (h : String → M W α) : (Res.exc e st).catch h = h e st := rfl
@[congr] theorem catch_congr {r r' : Res W α} {h : String → M W α} (e : r = r') : r.catch h = r'.catch h := by rw [e]

/-! ### The heap -/

/-- What was found on the heap. -/
def readObj (o : Option Obj) : M W Obj :=
  match o with
  | some o => M.pure o
  | none => M.stuck

@[py] theorem getObj_eq (l : ℕ) : getObj l st = readObj (st.heap l) st := by
  unfold getObj readObj; cases st.heap l <;> rfl
@[py] theorem readObj_some (o : Obj) : readObj (some o) st = .ok o st := rfl
theorem getObj_apply {l : ℕ} {o : Obj} (h : st.heap l = some o) : getObj l st = .ok o st := by simp only [getObj, h]
@[py] theorem putObj_apply (l : ℕ) (o : Obj) : putObj l o st = .ok () (st.put l o) := rfl
@[py] theorem allocObj_apply (o : Obj) : allocObj o st = .ok (.ref st.next) (st.alloc o) := rfl
theorem heap_put (l k : ℕ) (o : Obj) : (st.put l o).heap k = if k = l then some o else st.heap k := rfl
@[py] theorem heap_put_self (l : ℕ) (o : Obj) : (st.put l o).heap l = some o := by simp [heap_put]
@[py] theorem heap_put_ne {l k : ℕ} (h : k ≠ l) (o : Obj) : (st.put l o).heap k = st.heap k := by simp [heap_put, h]
@[py] theorem heap_alloc (k : ℕ) (o : Obj) : (st.alloc o).heap k = if k = st.next then some o else st.heap k := rfl
theorem heap_alloc_self (o : Obj) : (st.alloc o).heap st.next = some o := by simp [heap_alloc]
theorem heap_alloc_ne {k : ℕ} (h : k ≠ st.next) (o : Obj) : (st.alloc o).heap k = st.heap k := by simp [heap_alloc, h]
@[py] theorem next_put (l : ℕ) (o : Obj) : (st.put l o).next = st.next := rfl
@[py] theorem next_alloc (o : Obj) : (st.alloc o).next = st.next + 1 := rfl
@[py] theorem world_put (l : ℕ) (o : Obj) : (st.put l o).world = st.world := rfl
@[py] theorem world_alloc (o : Obj) : (st.alloc o).world = st.world := rfl

@[py] theorem put_put (l : ℕ) (o o' : Obj) : (st.put l o).put l o' = st.put l o' := by
  simp only [St.put, St.mk.injEq, and_true]; funext k; split <;> rfl
@[py] theorem alloc_put (o o' : Obj) : (st.alloc o).put st.next o' = st.alloc o' := by
  simp only [St.alloc, St.put, St.mk.injEq, and_true]; funext k; split <;> rfl

/-! ### Variables -/

@[py] theorem set_self (env : Env) (x : String) (v : Val) : (env.set x v) x = some v := by simp [Env.set]
@[py] theorem set_ne (env : Env) {x y : String} (h : y ≠ x) (v : Val) : (env.set x v) y = env y := by simp [Env.set, h]
@[py] theorem empty_apply (x : String) : Env.empty x = none := rfl

/-! ### Numbers -/

section

variable {A : Arith} {op : BinOp} {v w : Val} {x y : ℝ}

@[py] theorem toFloat_num : (Val.num x).toFloat A = some x := rfl
@[py] theorem toFloat_int (k : ℤ) : (Val.int k).toFloat A = some (A.rnd k) := rfl
@[py] theorem toReal_num : (Val.num x).toReal = some x := rfl
@[py] theorem toReal_int (k : ℤ) : (Val.int k).toReal = some (k : ℝ) := rfl

@[py] theorem floatOp_add : floatOp A .add x y st = .ok (A.add x y) st := rfl
@[py] theorem floatOp_sub : floatOp A .sub x y st = .ok (A.sub x y) st := rfl
@[py] theorem floatOp_mul : floatOp A .mul x y st = .ok (A.mul x y) st := rfl
@[py] theorem floatOp_div : floatOp A .div x y st = if y = 0 then .exc "ZeroDivisionError" st else .ok (A.div x y) st := by
  unfold floatOp; split_ifs <;> simp_all <;> rfl

@[py] theorem add_num : binOp A .add (.num x) (.num y) st = .ok (.num (A.add x y)) st := rfl
@[py] theorem sub_num : binOp A .sub (.num x) (.num y) st = .ok (.num (A.sub x y)) st := rfl
@[py] theorem mul_num : binOp A .mul (.num x) (.num y) st = .ok (.num (A.mul x y)) st := rfl

theorem binOp_left (hv : v.toFloat A = some x) : binOp A op v (.num y) st = (floatOp A op x y st).bind fun z => M.pure (.num z) := by
  cases v <;> simp [Val.toFloat] at hv <;> subst hv <;> rfl

theorem binOp_right (hw : w.toFloat A = some y) (h : op ≠ .pow) :
    binOp A op (.num x) w st = (floatOp A op x y st).bind fun z => M.pure (.num z) := by
  cases w <;> simp [Val.toFloat] at hw <;> subst hw
  · cases op <;> first | rfl | exact absurd rfl h
  · rfl

@[py] theorem div_num : binOp A .div (.num x) (.num y) st = if y = 0 then .exc "ZeroDivisionError" st else .ok (.num (A.div x y)) st := by
  rw [binOp_left rfl, floatOp_div]; split <;> rfl

theorem div_right (hw : w.toFloat A = some y) :
    binOp A .div (.num x) w st = if y = 0 then .exc "ZeroDivisionError" st else .ok (.num (A.div x y)) st := by
  rw [binOp_right hw (by decide), floatOp_div]; split <;> rfl

theorem div_left (hv : v.toFloat A = some x) :
    binOp A .div v (.num y) st = if y = 0 then .exc "ZeroDivisionError" st else .ok (.num (A.div x y)) st := by
  rw [binOp_left hv, floatOp_div]; split <;> rfl

@[py] theorem sq_num : binOp A .pow (.num x) (.int 2) st = .ok (.num (A.mul x x)) st := by
  simp [binOp, Val.isRef, numOp]; rfl

@[py] theorem add_int (a b : ℤ) : binOp A .add (.int a) (.int b) st = .ok (.int (a + b)) st := rfl
@[py] theorem sub_int (a b : ℤ) : binOp A .sub (.int a) (.int b) st = .ok (.int (a - b)) st := rfl
@[py] theorem mul_int (a b : ℤ) : binOp A .mul (.int a) (.int b) st = .ok (.int (a * b)) st := rfl

@[py] theorem neg_num : negOp (.num x) st = .ok (.num (-x)) st := rfl
@[py] theorem neg_int (k : ℤ) : negOp (.int k) st = .ok (.int (-k)) st := rfl

@[py] theorem truthy_bool (b : Bool) : truthy (.bool b) st = .ok b st := rfl
@[py] theorem truthy_none : truthy .none st = .ok false st := rfl
@[py] theorem truthy_tuple (vs : List Val) : truthy (.tuple vs) st = .ok (!vs.isEmpty) st := rfl

@[py] theorem isNone_none : Val.none.isNone = true := rfl
@[py] theorem isNone_num : (Val.num x).isNone = false := rfl
@[py] theorem isNone_int (k : ℤ) : (Val.int k).isNone = false := rfl
@[py] theorem isNone_ref (l : ℕ) : (Val.ref l).isNone = false := rfl
@[py] theorem isNone_tuple (vs : List Val) : (Val.tuple vs).isNone = false := rfl
@[py] theorem isNone_list (vs : List Val) : (Val.list vs).isNone = false := rfl

@[py] theorem cmp_lt : cmpOp .lt (.num x) (.num y) st = .ok (.bool (decide (x < y))) st := rfl
@[py] theorem cmp_le : cmpOp .le (.num x) (.num y) st = .ok (.bool (decide (x ≤ y))) st := rfl
@[py] theorem cmp_gt : cmpOp .gt (.num x) (.num y) st = .ok (.bool (decide (x > y))) st := rfl
@[py] theorem cmp_ge : cmpOp .ge (.num x) (.num y) st = .ok (.bool (decide (x ≥ y))) st := rfl
@[py] theorem cmp_eq : cmpOp .eq (.num x) (.num y) st = .ok (.bool (decide (x = y))) st := rfl
@[py] theorem cmp_lt_none : cmpOp .lt (.num x) .none st = .exc "TypeError" st := rfl
@[py] theorem cmp_ge_none : cmpOp .ge .none (.num x) st = .exc "TypeError" st := rfl
@[py] theorem cmp_is : cmpOp .is v .none st = .ok (.bool v.isNone) st := rfl
@[py] theorem cmp_isNot : cmpOp .isNot v .none st = .ok (.bool (!v.isNone)) st := rfl

open Classical in
@[py] theorem cmp_lt_int (a b : ℤ) : cmpOp .lt (.int a) (.int b) st = .ok (.bool (decide (a < b))) st := by
  simp only [cmpOp, Val.toReal, ordOp, Int.cast_lt]; congr
open Classical in
@[py] theorem cmp_ge_int (a b : ℤ) : cmpOp .ge (.int a) (.int b) st = .ok (.bool (decide (a ≥ b))) st := by
  simp only [cmpOp, Val.toReal, ordOp, ge_iff_le, Int.cast_le]; congr
open Classical in
@[py] theorem cmp_eq_int (a b : ℤ) : cmpOp .eq (.int a) (.int b) st = .ok (.bool (decide (a = b))) st := by
  simp only [cmpOp, eqOp, Val.toReal, Int.cast_inj]; congr

@[py] theorem cmp_eq_glob (g h : String) : cmpOp .eq (.glob g) (.glob h) st = .ok (.bool (decide (g = h))) st := by
  simp only [cmpOp, eqOp, Val.toReal, pure_apply, bind_apply, rbind_ok]
@[py] theorem cmp_ne_glob (g h : String) : cmpOp .ne (.glob g) (.glob h) st = .ok (.bool (!decide (g = h))) st := by
  simp only [cmpOp, eqOp, Val.toReal, pure_apply, bind_apply, rbind_ok]

end

/-! ### Expressions -/

section

variable {mc : Machine W} {cl : Val → List Val → M W Val} {env : Env}

@[py ↓] theorem eval_none : eval mc cl env .none st = .ok .none st := rfl
@[py ↓] theorem eval_bool (b : Bool) : eval mc cl env (.bool b) st = .ok (.bool b) st := rfl
@[py ↓] theorem eval_int (n : ℕ) : eval mc cl env (.int n) st = .ok (.int n) st := rfl
@[py ↓] theorem eval_dec (m e : ℕ) (b : Bool) : eval mc cl env (.dec m e b) st = .ok (.num (literal mc.A m e b)) st := rfl
@[py ↓] theorem eval_imag (m e : ℕ) (b : Bool) : eval mc cl env (.imag m e b) st = .ok (.cplx ⟨0, literal mc.A m e b⟩) st := rfl
@[py ↓] theorem eval_str (s : String) : eval mc cl env (.str s) st = .ok (.str s) st := rfl
/-- The value of a name for what was found among the local variables. -/
def readVar (mc : Machine W) (x : String) (o : Option Val) : M W Val :=
  match o with
  | some v => M.pure v
  | none => if mc.prog.isGlobal x then M.pure (.glob x) else M.exc "NameError"

@[py ↓] theorem eval_name (x : String) : eval mc cl env (.name x) st = readVar mc x (env x) st := by
  simp only [eval, readVar]; split <;> rfl
@[py] theorem readVar_some (x : String) (v : Val) : readVar mc x (some v) st = .ok v st := rfl
@[py] theorem readVar_none (x : String) :
    readVar mc x none st = if mc.prog.isGlobal x then .ok (.glob x) st else .exc "NameError" st := by unfold readVar; split <;> rfl
@[py ↓] theorem eval_attr (e : PExpr) (a : String) : eval mc cl env (.attr e a) st = (eval mc cl env e st).bind fun v => getAttr mc cl v a := rfl
@[py ↓] theorem eval_bin (op : BinOp) (l r : PExpr) :
    eval mc cl env (.bin op l r) st = (eval mc cl env l st).bind fun v => M.bind (eval mc cl env r) fun w => binOp mc.A op v w := rfl
@[py ↓] theorem eval_neg (e : PExpr) : eval mc cl env (.neg e) st = (eval mc cl env e st).bind negOp := rfl
@[py ↓] theorem eval_not (e : PExpr) :
    eval mc cl env (.not e) st = (eval mc cl env e st).bind fun v => M.bind (truthy v) fun b => M.pure (.bool (!b)) := rfl
@[py ↓] theorem eval_cmp (op : CmpOp) (l r : PExpr) :
    eval mc cl env (.cmp op l r) st = (eval mc cl env l st).bind fun v => M.bind (eval mc cl env r) fun w => cmpOp op v w := rfl
@[py ↓] theorem eval_and (l r : PExpr) :
    eval mc cl env (.and l r) st = (eval mc cl env l st).bind fun v => M.bind (truthy v) fun b => if b then eval mc cl env r else M.pure v := rfl
@[py ↓] theorem eval_or (l r : PExpr) :
    eval mc cl env (.or l r) st = (eval mc cl env l st).bind fun v => M.bind (truthy v) fun b => if b then M.pure v else eval mc cl env r := rfl
@[py ↓] theorem eval_ite (c t e : PExpr) :
    eval mc cl env (.ite c t e) st = (eval mc cl env c st).bind fun v => M.bind (truthy v) fun b => if b then eval mc cl env t else eval mc cl env e := rfl
@[py ↓] theorem eval_tuple (es : List PExpr) : eval mc cl env (.tuple es) st = (evals mc cl env es st).bind fun vs => M.pure (.tuple vs) := rfl
@[py ↓] theorem eval_list (es : List PExpr) : eval mc cl env (.list es) st = (evals mc cl env es st).bind fun vs => M.pure (.list vs) := rfl
@[py ↓] theorem eval_call (f : PExpr) (args : List PExpr) :
    eval mc cl env (.call f args) st = (eval mc cl env f st).bind fun v => M.bind (evals mc cl env args) fun vs => cl v vs := rfl
@[py ↓] theorem eval_index (e : PExpr) (is : List PExpr) :
    eval mc cl env (.index e is) st
      = (eval mc cl env e st).bind fun v => M.bind (evals mc cl env is) fun vs => M.bind (toIdxs vs) fun ks => getItem v ks := rfl
@[py ↓] theorem eval_slice (lo hi : PExpr) :
    eval mc cl env (.slice lo hi) st
      = (eval mc cl env lo st).bind fun a => M.bind (eval mc cl env hi) fun b => M.pure (.tuple [.str "slice", a, b]) := rfl
@[py ↓] theorem eval_lam (xs : List String) (e : PExpr) : eval mc cl env (.lam xs e) st = .ok (.clos xs [.ret e] env) st := rfl
@[py ↓] theorem eval_comp (e : PExpr) (xs : List String) (it : PExpr) :
    eval mc cl env (.comp e xs it) st = (eval mc cl env it st).bind fun v => M.bind (iterate v) fun vs =>
      M.bind (mapList (fun w => M.bind (bindNames xs w env) fun env' => eval mc cl env' e) vs) fun ws => M.pure (.list ws) := rfl
@[py ↓] theorem evals_nil : evals mc cl env [] st = .ok [] st := rfl
@[py ↓] theorem evals_cons (e : PExpr) (es : List PExpr) :
    evals mc cl env (e :: es) st = (eval mc cl env e st).bind fun v => M.bind (evals mc cl env es) fun vs => M.pure (v :: vs) := rfl

/-! ### Attributes -/

@[py] theorem getAttr_glob (g a : String) : getAttr mc cl (.glob g) a st = .ok (.glob (g ++ "." ++ a)) st := rfl

/-- `v.a` where `v` is an instance without an attribute `a` of its own. -/
noncomputable def classMember (mc : Machine W) (cl : Val → List Val → M W Val) (l : ℕ) (cls a : String) (o : Option PFun) : M W Val :=
  match o with
  | some f => if f.isProperty then cl (.meth (.ref l) a) [] else M.pure (.meth (.ref l) a)
  | none =>
    match mc.prog.classAttr? cls a with
    | some e => constant mc.A e
    | none => M.exc "AttributeError"

/-- `v.a` for what was found among the attributes of the instance. -/
noncomputable def member (mc : Machine W) (cl : Val → List Val → M W Val) (l : ℕ) (cls a : String) (o : Option Val) : M W Val :=
  match o with
  | some w => M.pure w
  | none => classMember mc cl l cls a (mc.prog.method? cls a)

/-- `v.a` for what was found on the heap. -/
noncomputable def objMember (mc : Machine W) (cl : Val → List Val → M W Val) (l : ℕ) (a : String) (o : Option Obj) : M W Val :=
  match o with
  | some (.inst cls attrs) => member mc cl l cls a (attrs a)
  | some (.vec n _) => M.pure (if a = "shape" then .tuple [.int n] else .meth (.ref l) a)
  | some (.mat r c _) => M.pure (if a = "shape" then .tuple [.int r, .int c] else .meth (.ref l) a)
  | some _ => M.pure (.meth (.ref l) a)
  | none => M.stuck

@[py] theorem getAttr_ref (l : ℕ) (a : String) : getAttr mc cl (.ref l) a st = objMember mc cl l a (st.heap l) st := by
  simp only [getAttr, bind_apply, getObj_eq]
  cases st.heap l with
  | none => rfl
  | some o =>
    cases o <;> rfl

section
variable (l : ℕ) (cls a : String) (attrs : Env)
@[py] theorem objMember_inst : objMember mc cl l a (some (.inst cls attrs)) st = member mc cl l cls a (attrs a) st := rfl
@[py] theorem objMember_vec (n : ℕ) (x : Fin n → ℝ) : objMember mc cl l a (some (.vec n x)) st = .ok (if a = "shape" then .tuple [.int n] else .meth (.ref l) a) st := rfl
@[py] theorem objMember_mat (r c : ℕ) (x : Fin r → Fin c → ℝ) : objMember mc cl l a (some (.mat r c x)) st = .ok (if a = "shape" then .tuple [.int r, .int c] else .meth (.ref l) a) st := rfl
@[py] theorem objMember_user : objMember mc cl l a (some .user) st = .ok (.meth (.ref l) a) st := rfl
@[py] theorem member_some (w : Val) : member mc cl l cls a (some w) st = .ok w st := rfl
@[py] theorem member_none : member mc cl l cls a none st = classMember mc cl l cls a (mc.prog.method? cls a) st := rfl
@[py] theorem classMember_some (f : PFun) :
    classMember mc cl l cls a (some f) st = if f.isProperty then cl (.meth (.ref l) a) [] st else .ok (.meth (.ref l) a) st := by
  simp only [classMember]; split <;> rfl
theorem classMember_none {e : PExpr} (h : mc.prog.classAttr? cls a = some e) : classMember mc cl l cls a none st = constant mc.A e st := by
  simp only [classMember, h]

/-- `v.a = w` for what was found on the heap. -/
def setMember (l : ℕ) (a : String) (w : Val) (o : Option Obj) : M W Unit :=
  match o with
  | some (.inst cls attrs) => putObj l (.inst cls (attrs.set a w))
  | _ => M.stuck

@[py] theorem setAttr_ref (w : Val) : setAttr (.ref l) a w st = setMember l a w (st.heap l) st := by
  simp only [setAttr, bind_apply, getObj_eq]
  cases st.heap l with
  | none => rfl
  | some o => cases o <;> rfl

@[py] theorem setMember_inst (w : Val) : setMember l a w (some (.inst cls attrs)) st = .ok () (st.put l (.inst cls (attrs.set a w))) := rfl
end

@[py] theorem constant_bool (A : Arith) (b : Bool) : constant A (.bool b) st = .ok (.bool b) st := rfl
@[py] theorem constant_int (A : Arith) (n : ℕ) : constant A (.int n) st = .ok (.int n) st := rfl
@[py] theorem constant_neg (A : Arith) (n : ℕ) : constant A (.neg (.int n)) st = .ok (.int (-n)) st := rfl
@[py] theorem constant_dec (A : Arith) (m e : ℕ) (b : Bool) : constant A (.dec m e b) st = .ok (.num (literal A m e b)) st := rfl

/-! ### Statements -/

@[py ↓] theorem exec_assign (t e : PExpr) :
    exec mc cl (.assign t e) env st = (eval mc cl env e st).bind fun v => M.bind (assignTo mc cl v env t) fun env' => M.pure (.next env') := rfl
@[py ↓] theorem exec_aug (op : BinOp) (t e : PExpr) :
    exec mc cl (.aug op t e) env st = (augAssign mc cl op t e env st).bind fun env' => M.pure (.next env') := rfl
@[py ↓] theorem exec_expr (e : PExpr) : exec mc cl (.expr e) env st = (eval mc cl env e st).bind fun _ => M.pure (.next env) := rfl
@[py ↓] theorem exec_ite (c : PExpr) (t e : List PStmt) :
    exec mc cl (.ite c t e) env st
      = (eval mc cl env c st).bind fun v => M.bind (truthy v) fun b => if b then execs mc cl t env else execs mc cl e env := rfl
/-- One turn of a loop. -/
noncomputable def turn (mc : Machine W) (cl : Val → List Val → M W Val) (t : PExpr) (body : List PStmt) (w : Val) (env : Env) : M W Flow :=
  M.bind (assignTo mc cl w env t) fun env' => execs mc cl body env'

/-- Go on after a turn of a loop. -/
def again (body : Val → Env → M W Flow) (vs : List Val) (f : Flow) : M W Flow :=
  match f with
  | .next env' => loop body vs env'
  | .cont env' => loop body vs env'
  | .brk env' => M.pure (.next env')
  | .ret w => M.pure (.ret w)

@[py ↓] theorem exec_for (t it : PExpr) (body : List PStmt) :
    exec mc cl (.for_ t it body) env st = (eval mc cl env it st).bind fun v => M.bind (iterate v) fun vs => loop (turn mc cl t body) vs env := rfl
@[py ↓] theorem turn_apply (t : PExpr) (body : List PStmt) (w : Val) :
    turn mc cl t body w env st = (assignTo mc cl w env t st).bind fun env' => execs mc cl body env' := rfl
section
variable (body : Val → Env → M W Flow) (w : Val) (vs : List Val)
@[py ↓] theorem loop_nil : loop body [] env st = .ok (.next env) st := rfl
@[py ↓] theorem loop_cons : loop body (w :: vs) env st = (body w env st).bind (again body vs) := rfl
@[py ↓] theorem again_next : again body vs (.next env) st = loop body vs env st := rfl
@[py ↓] theorem again_cont : again body vs (.cont env) st = loop body vs env st := rfl
@[py ↓] theorem again_brk : again body vs (.brk env) st = .ok (.next env) st := rfl
@[py ↓] theorem again_ret : again body vs (.ret w) st = .ok (.ret w) st := rfl
end
@[py ↓] theorem exec_ret (e : PExpr) : exec mc cl (.ret e) env st = (eval mc cl env e st).bind fun v => M.pure (.ret v) := rfl
@[py ↓] theorem exec_assert (e : PExpr) :
    exec mc cl (.assert e) env st
      = (eval mc cl env e st).bind fun v => M.bind (truthy v) fun b => if b then M.pure (.next env) else M.exc "AssertionError" := rfl
@[py ↓] theorem exec_raise_call (x : String) (es : List PExpr) : exec mc cl (.raise (.call (.name x) es)) env st = .exc x st := rfl
@[py ↓] theorem exec_raise_name (x : String) : exec mc cl (.raise (.name x)) env st = .exc x st := rfl
@[py ↓] theorem exec_brk : exec mc cl .brk env st = .ok (.brk env) st := rfl
@[py ↓] theorem exec_cont : exec mc cl .cont env st = .ok (.cont env) st := rfl
@[py ↓] theorem exec_pass : exec mc cl .pass env st = .ok (.next env) st := rfl
@[py ↓] theorem exec_fn (x : String) (xs : List String) (body : List PStmt) :
    exec mc cl (.fn x xs body) env st = .ok (.next (env.set x (.clos xs body env))) st := rfl

@[py ↓] theorem exec_try (body hs : List PStmt) :
    exec mc cl (.try_ body hs) env st = (execs mc cl body env st).catch fun e => handle mc cl e hs env := rfl
@[py ↓] theorem exec_except (ns : List String) (body : List PStmt) : exec mc cl (.except ns body) env st = execs mc cl body env st := rfl
@[py ↓] theorem handle_nil (e : String) : handle mc cl e [] env st = .exc e st := rfl
theorem handle_cons (e : String) (h : PStmt) (hs : List PStmt) :
    handle mc cl e (h :: hs) env st = if h.handles e then exec mc cl h env st else handle mc cl e hs env st := by
  simp only [handle]; split <;> rfl

/-- Go on after a statement. -/
noncomputable def after (mc : Machine W) (cl : Val → List Val → M W Val) (ss : List PStmt) (f : Flow) : M W Flow :=
  match f with
  | .next env' => execs mc cl ss env'
  | f => M.pure f

@[py ↓] theorem execs_nil : execs mc cl [] env st = .ok (.next env) st := rfl
@[py ↓] theorem execs_cons (s : PStmt) (ss : List PStmt) : execs mc cl (s :: ss) env st = (exec mc cl s env st).bind (after mc cl ss) := rfl
@[py ↓] theorem after_next (ss : List PStmt) : after mc cl ss (.next env) st = execs mc cl ss env st := rfl
@[py ↓] theorem after_ret (ss : List PStmt) (v : Val) : after mc cl ss (.ret v) st = .ok (.ret v) st := rfl
@[py ↓] theorem after_brk (ss : List PStmt) : after mc cl ss (.brk env) st = .ok (.brk env) st := rfl
@[py ↓] theorem after_cont (ss : List PStmt) : after mc cl ss (.cont env) st = .ok (.cont env) st := rfl

@[py ↓] theorem assign_name (v : Val) (x : String) : assignTo mc cl v env (.name x) st = .ok (env.set x v) st := rfl
@[py ↓] theorem assign_attr (v : Val) (e : PExpr) (a : String) :
    assignTo mc cl v env (.attr e a) st = (eval mc cl env e st).bind fun o => M.bind (setAttr o a v) fun _ => M.pure env := rfl
@[py ↓] theorem assign_index (v : Val) (e : PExpr) (is : List PExpr) :
    assignTo mc cl v env (.index e is) st = (eval mc cl env e st).bind fun o => M.bind (evals mc cl env is) fun vs => M.bind (toIdxs vs) fun ks =>
      M.bind (setItem mc.A o ks v) fun _ => M.pure env := rfl
@[py ↓] theorem assign_tuple (v : Val) (ts : List PExpr) :
    assignTo mc cl v env (.tuple ts) st = (iterate v st).bind fun vs => assignTos mc cl vs env ts := rfl
@[py ↓] theorem assigns_nil : assignTos mc cl [] env [] st = .ok env st := rfl
@[py ↓] theorem assigns_cons (v : Val) (vs : List Val) (t : PExpr) (ts : List PExpr) :
    assignTos mc cl (v :: vs) env (t :: ts) st = (assignTo mc cl v env t st).bind fun env' => assignTos mc cl vs env' ts := rfl

@[py] theorem iterate_tuple (vs : List Val) : iterate (.tuple vs) st = .ok vs st := rfl
@[py] theorem iterate_list (vs : List Val) : iterate (.list vs) st = .ok vs st := rfl

@[py ↓] theorem aug_name (op : BinOp) (x : String) (e : PExpr) :
    augAssign mc cl op (.name x) e env st = (eval mc cl env (.name x) st).bind fun v => M.bind (eval mc cl env e) fun w =>
      M.bind (augOp mc.A op v w) fun r => M.pure (env.set x r) := rfl
@[py ↓] theorem aug_attr (op : BinOp) (o : PExpr) (a : String) (e : PExpr) :
    augAssign mc cl op (.attr o a) e env st = (eval mc cl env o st).bind fun b => M.bind (getAttr mc cl b a) fun v =>
      M.bind (eval mc cl env e) fun w => M.bind (augOp mc.A op v w) fun r => M.bind (setAttr b a r) fun _ => M.pure env := rfl
@[py ↓] theorem aug_index (op : BinOp) (o : PExpr) (is : List PExpr) (e : PExpr) :
    augAssign mc cl op (.index o is) e env st = (eval mc cl env o st).bind fun b => M.bind (evals mc cl env is) fun vs =>
      M.bind (toIdxs vs) fun ks => M.bind (getItem b ks) fun v => M.bind (eval mc cl env e) fun w => M.bind (augOp mc.A op v w) fun r =>
      M.bind (setItem mc.A b ks r) fun _ => M.pure env := rfl

@[py] theorem augOp_num (A : Arith) (op : BinOp) (x : ℝ) (w : Val) : augOp A op (.num x) w st = binOp A op (.num x) w st := rfl
@[py] theorem augOp_int (A : Arith) (op : BinOp) (k : ℤ) (w : Val) : augOp A op (.int k) w st = binOp A op (.int k) w st := rfl

/-! ### Calls -/

@[py ↓] theorem result_ret (v : Val) : result (.ret v) st = .ok v st := rfl
@[py ↓] theorem result_next : result (.next env) st = .ok .none st := rfl

@[py ↓] theorem runBody_nil (body : List PStmt) : runBody mc cl [] body [] env st = (execs mc cl body env st).bind result := rfl
@[py ↓] theorem runBody_cons (x : String) (xs : List String) (body : List PStmt) (v : Val) (vs : List Val) :
    runBody mc cl (x :: xs) body (v :: vs) env st = runBody mc cl xs body vs (env.set x v) st := rfl

@[py ↓ high] theorem ret_tail (r : Res W Val) (ss : List PStmt) :
    (r.bind fun a => M.bind (M.bind (M.pure (.ret a)) (after mc cl ss)) result) = r := by cases r <;> rfl

@[py ↓ high] theorem ret_tail2 (r : Res W Val) (ss ss' : List PStmt) :
    (r.bind fun a => M.bind (M.bind (M.bind (M.pure (.ret a)) (after mc cl ss)) (after mc cl ss')) result) = r := by cases r <;> rfl

@[py ↓ high] theorem ret_tail3 (r : Res W Val) (ss ss' ss'' : List PStmt) :
    (r.bind fun a => M.bind (M.bind (M.bind (M.bind (M.pure (.ret a)) (after mc cl ss)) (after mc cl ss')) (after mc cl ss'')) result) = r := by
  cases r <;> rfl

/-- A call with all arguments. -/
theorem runFun_all {f : PFun} {args : List Val} (h : args.length = f.params.length) :
    runFun mc cl f args st = runBody mc cl f.params f.body args Env.empty st := by
  simp only [runFun, h, Nat.sub_self, Nat.zero_le, if_true, Nat.sub_zero, List.drop_length, evals, bind_apply, pure_apply, rbind_ok, List.append_nil]

/-- A method call. -/
theorem call_meth {fuel l : ℕ} {cls m : String} {attrs : Env} {f : PFun} {args : List Val}
    (h : st.heap l = some (.inst cls attrs)) (hf : mc.prog.method? cls m = some f) (hn : args.length + 1 = f.params.length) :
    call mc (fuel + 1) (.meth (.ref l) m) args st = runBody mc (call mc fuel) f.params f.body (.ref l :: args) Env.empty st := by
  simp only [call, bind_apply, getObj_apply h, rbind_ok, hf]
  exact runFun_all hn

/-- A function call. -/
theorem call_fun {fuel : ℕ} {g : String} {f : PFun} {args : List Val} (hf : mc.prog.fun? g = some f) (hn : args.length = f.params.length) :
    call mc (fuel + 1) (.glob g) args st = runBody mc (call mc fuel) f.params f.body args Env.empty st := by
  simp only [call, hf]
  exact runFun_all hn

/-- A new object. -/
theorem call_class {fuel : ℕ} {g : String} {k : PClass} {f : PFun} {args : List Val} (h : mc.prog.fun? g = none) (hk : mc.prog.class? g = some k)
    (hf : (k.methods.find? fun m => m.name == "__init__") = some f) (hn : args.length + 1 = f.params.length) :
    call mc (fuel + 1) (.glob g) args st
      = (runBody mc (call mc fuel) f.params f.body (.ref st.next :: args) Env.empty (st.alloc (.inst g Env.empty))).bind fun _ => M.pure (.ref st.next) := by
  simp only [call, h, hk, bind_apply, allocObj_apply, rbind_ok, hf]
  rw [runFun_all (args := .ref st.next :: args) hn]

theorem call_lib {fuel : ℕ} {g : String} {args : List Val} (h : mc.prog.fun? g = none) (hf : mc.prog.class? g = none) :
    call mc (fuel + 1) (.glob g) args st = builtin mc.A g args st := by
  simp only [call, h, hf]

theorem call_clos {fuel : ℕ} {xs : List String} {body : List PStmt} {args : List Val} :
    call mc (fuel + 1) (.clos xs body env) args st = runBody mc (call mc fuel) xs body args env st := rfl

theorem call_user {fuel l : ℕ} {m : String} {args : List Val} (h : st.heap l = some .user) :
    call mc (fuel + 1) (.meth (.ref l) m) args st = mc.ext l m args st := by
  simp only [call, bind_apply, getObj_apply h, rbind_ok]

theorem call_vec {fuel l n : ℕ} {m : String} {args : List Val} {x : Fin n → ℝ} (h : st.heap l = some (.vec n x)) :
    call mc (fuel + 1) (.meth (.ref l) m) args st = arrayMethod mc.A (.ref l) m args st := by
  simp only [call, bind_apply, getObj_apply h, rbind_ok]

end

/-! ### Sequences -/

@[py] theorem len_tuple (vs : List Val) : lenOf (.tuple vs) st = .ok (.int vs.length) st := rfl
@[py] theorem len_list (vs : List Val) : lenOf (.list vs) st = .ok (.int vs.length) st := rfl
@[py] theorem toIdxs_nil : toIdxs [] st = .ok [] st := rfl
@[py] theorem toIdxs_cons (v : Val) (vs : List Val) :
    toIdxs (v :: vs) st = (toIdx v st).bind fun i => M.bind (toIdxs vs) fun is => M.pure (i :: is) := rfl
@[py] theorem toIdx_int (k : ℤ) : toIdx (.int k) st = .ok (.pos k) st := rfl

theorem normIdx_zero (n : ℕ) : normIdx (n + 1) 0 = some 0 := by simp [normIdx]
theorem normIdx_one (n : ℕ) : normIdx (n + 2) 1 = some 1 := by simp [normIdx]; omega

section
variable (v w : Val) (vs : List Val)
@[py] theorem tuple_zero : getItem (.tuple (v :: vs)) [.pos 0] st = .ok v st := by
  simp only [getItem, List.length_cons, normIdx_zero]; rfl
@[py] theorem list_zero : getItem (.list (v :: vs)) [.pos 0] st = .ok v st := by
  simp only [getItem, List.length_cons, normIdx_zero]; rfl
@[py] theorem tuple_one : getItem (.tuple (v :: w :: vs)) [.pos 1] st = .ok w st := by
  simp only [getItem, List.length_cons, normIdx_one]; rfl
@[py] theorem list_one : getItem (.list (v :: w :: vs)) [.pos 1] st = .ok w st := by
  simp only [getItem, List.length_cons, normIdx_one]; rfl
@[py] theorem tuple_nil : getItem (.tuple []) [.pos 0] st = .exc "IndexError" st := rfl
@[py] theorem list_nil : getItem (.list []) [.pos 0] st = .exc "IndexError" st := rfl
end

@[py] theorem two_eq_zero : ((2 : ℝ) = 0) = False := by simp

attribute [py] if_true if_false Bool.true_eq_false Bool.false_eq_true decide_eq_true_eq Bool.not_eq_true' Bool.not_true Bool.not_false
  decide_true decide_false ite_self ne_eq not_false_eq_true String.reduceEq String.reduceAppend Nat.cast_ofNat Nat.cast_zero Nat.cast_one

end Ellalgo.Py
