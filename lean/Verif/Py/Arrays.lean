import Verif.Py.Program

/-! # Rules for arrays -/

set_option linter.unusedSimpArgs false

namespace Ellalgo.Py

variable {W : Type} {st : St W} {A : Arith} {ext : ℕ → String → List Val → M W Val} {fuel : ℕ}

/-! ### Numbers of any type -/

theorem augOp_left {op : BinOp} {v : Val} {x y : ℝ} (hv : v.toFloat A = some x) :
    augOp A op v (.num y) st = (floatOp A op x y st).bind fun z => M.pure (.num z) := by
  cases v <;> simp [Val.toFloat] at hv <;> subst hv <;> rfl

/-! ### Comparison with a number -/

/-- `a == y` for an array `a` that was found on the heap. -/
noncomputable def eqArr (o : Option Obj) (y : Option ℝ) : M W Val :=
  match o, y with
  | some (.vec n x), some y => allocObj (.mask n fun i => x i = y)
  | _, _ => M.stuck

@[py] theorem cmp_eq_ref (l : ℕ) (w : Val) : cmpOp .eq (.ref l) w st = eqArr (st.heap l) w.toReal st := by
  simp only [cmpOp, bind_apply, getObj_eq]
  cases st.heap l with
  | none => rfl
  | some o => cases o <;> cases w.toReal <;> rfl
@[py] theorem eqArr_vec (n : ℕ) (x : Fin n → ℝ) (y : ℝ) :
    eqArr (some (.vec n x)) (some y) st = .ok (.ref st.next) (st.alloc (.mask n fun i => x i = y)) := rfl

open Classical in
/-- `np.all(a)`. -/
noncomputable def allArr (o : Option Obj) : M W Val :=
  match o with
  | some (.mask _ x) => M.pure (.bool (decide (∀ i, x i)))
  | _ => M.stuck

@[py] theorem np_all_ref (l : ℕ) : builtin A "np.all" [.ref l] st = allArr (st.heap l) st := by
  simp only [builtin, bind_apply, getObj_eq]
  cases st.heap l with
  | none => rfl
  | some o => cases o <;> rfl
open Classical in
@[py] theorem allArr_mask (n : ℕ) (x : Fin n → Prop) : allArr (some (.mask n x)) st = .ok (.bool (decide (∀ i, x i))) st := rfl

/-! ### Operations entry by entry and products -/

/-- An operation on two arrays that were found on the heap. -/
noncomputable def arr2 (A : Arith) (op : BinOp) (o p : Option Obj) : M W Val :=
  match o, p with
  | some o, some p => arrVal A op (.obj o) (.obj p)
  | _, _ => M.stuck

noncomputable def arrL (A : Arith) (op : BinOp) (x : ℝ) (p : Option Obj) : M W Val :=
  match p with
  | some p => arrVal A op (.scalar x) (.obj p)
  | _ => M.stuck

noncomputable def arrR (A : Arith) (op : BinOp) (o : Option Obj) (y : ℝ) : M W Val :=
  match o with
  | some o => arrVal A op (.obj o) (.scalar y)
  | _ => M.stuck

theorem binOp_arr (op : BinOp) {v w : Val} (h : (v.isRef || w.isRef) = true) :
    binOp A op v w st = (operand A v st).bind fun a => M.bind (operand A w) fun b => arrVal A op a b := by
  unfold binOp; rw [if_pos h]; rfl

@[py] theorem binOp_rr (op : BinOp) (l k : ℕ) : binOp A op (.ref l) (.ref k) st = arr2 A op (st.heap l) (st.heap k) st := by
  rw [binOp_arr op rfl]
  simp only [operand, bind_apply, getObj_eq]
  cases hl : st.heap l with
  | none => rfl
  | some o =>
    simp only [readObj, py, getObj_eq]
    cases st.heap k <;> rfl

@[py] theorem binOp_nr (op : BinOp) (x : ℝ) (k : ℕ) : binOp A op (.num x) (.ref k) st = arrL A op x (st.heap k) st := by
  rw [binOp_arr op rfl]
  simp only [operand, bind_apply, pure_apply, rbind_ok, getObj_eq]
  cases st.heap k <;> rfl

@[py] theorem binOp_rn (op : BinOp) (l : ℕ) (y : ℝ) : binOp A op (.ref l) (.num y) st = arrR A op (st.heap l) y st := by
  rw [binOp_arr op rfl]
  simp only [operand, bind_apply, getObj_eq]
  cases st.heap l <;> rfl

section
variable {n r c : ℕ} (x y : Fin n → ℝ) (a b : Fin r → Fin c → ℝ) (s : ℝ)
@[py] theorem arr2_mv (m : Fin n → Fin n → ℝ) :
    arr2 A .matmul (some (.mat n n m)) (some (.vec n x)) st = .ok (.ref st.next) (st.alloc (.vec n (A.mv (Matrix.of m) x))) := by
  simp only [arr2, arrVal, arrOp, and_self, dite_true, bind_apply, Fin.cast_eq_self]; rfl
@[py] theorem arr2_add : arr2 A .add (some (.vec n x)) (some (.vec n y)) st = .ok (.ref st.next) (st.alloc (.vec n fun i => A.add (x i) (y i))) := by
  simp [arr2, arrVal, arrOp, vecOp, BinOp.entrywise, py, rawOp]
@[py] theorem arr2_sub : arr2 A .sub (some (.vec n x)) (some (.vec n y)) st = .ok (.ref st.next) (st.alloc (.vec n fun i => A.sub (x i) (y i))) := by
  simp [arr2, arrVal, arrOp, vecOp, BinOp.entrywise, py, rawOp]
@[py] theorem arr2_mul : arr2 A .mul (some (.vec n x)) (some (.vec n y)) st = .ok (.ref st.next) (st.alloc (.vec n fun i => A.mul (x i) (y i))) := by
  simp [arr2, arrVal, arrOp, vecOp, BinOp.entrywise, py, rawOp]
@[py] theorem arrL_mul : arrL A .mul s (some (.vec n x)) st = .ok (.ref st.next) (st.alloc (.vec n fun i => A.mul s (x i))) := by
  simp [arrL, arrVal, arrOp, vecOp, BinOp.entrywise, py, rawOp]
@[py] theorem arrL_mul_mat : arrL A .mul s (some (.mat r c a)) st = .ok (.ref st.next) (st.alloc (.mat r c fun i j => A.mul s (a i j))) := by
  simp [arrL, arrVal, arrOp, matOp, BinOp.entrywise, py, rawOp]
@[py] theorem arrR_mul_mat : arrR A .mul (some (.mat r c a)) s st = .ok (.ref st.next) (st.alloc (.mat r c fun i j => A.mul (a i j) s)) := by
  simp [arrR, arrVal, arrOp, matOp, BinOp.entrywise, py, rawOp]
@[py] theorem arrR_div (z : Fin (n + 1) → ℝ) : arrR A .div (some (.vec (n + 1) z)) s st
    = if s = 0 then .exc "ZeroDivisionError" st else .ok (.ref st.next) (st.alloc (.vec (n + 1) fun i => A.div (z i) s)) := by
  by_cases h : s = 0 <;> simp [arrR, arrVal, arrOp, vecOp, BinOp.entrywise, py, rawOp, h]
end

/-! ### In place -/

noncomputable def aug2 (A : Arith) (op : BinOp) (l : ℕ) (o p : Option Obj) : M W Val :=
  match o, p with
  | some o, some p => M.bind (arrOp A op (.obj o) (.obj p)) fun q => M.bind (putObj l q) fun _ => M.pure (.ref l)
  | _, _ => M.stuck

noncomputable def augR (A : Arith) (op : BinOp) (l : ℕ) (o : Option Obj) (y : ℝ) : M W Val :=
  match o with
  | some o => M.bind (arrOp A op (.obj o) (.scalar y)) fun q => M.bind (putObj l q) fun _ => M.pure (.ref l)
  | _ => M.stuck

@[py] theorem augOp_rr (op : BinOp) (l k : ℕ) : augOp A op (.ref l) (.ref k) st = aug2 A op l (st.heap l) (st.heap k) st := by
  simp only [augOp, operand, bind_apply, getObj_eq]
  cases hl : st.heap l with
  | none => rfl
  | some o =>
    simp only [readObj, py, getObj_eq]
    cases st.heap k <;> rfl

@[py] theorem augOp_rn (op : BinOp) (l : ℕ) (y : ℝ) : augOp A op (.ref l) (.num y) st = augR A op l (st.heap l) y st := by
  simp only [augOp, operand, bind_apply, getObj_eq]
  cases st.heap l <;> rfl

section
variable {n r c : ℕ} (l : ℕ) (x y : Fin n → ℝ) (a b : Fin r → Fin c → ℝ) (s : ℝ)
@[py] theorem aug2_sub : aug2 A .sub l (some (.vec n x)) (some (.vec n y)) st = .ok (.ref l) (st.put l (.vec n fun i => A.sub (x i) (y i))) := by
  simp [aug2, arrOp, vecOp, BinOp.entrywise, py, rawOp]
@[py] theorem aug2_add : aug2 A .add l (some (.vec n x)) (some (.vec n y)) st = .ok (.ref l) (st.put l (.vec n fun i => A.add (x i) (y i))) := by
  simp [aug2, arrOp, vecOp, BinOp.entrywise, py, rawOp]
@[py] theorem aug2_sub_mat : aug2 A .sub l (some (.mat r c a)) (some (.mat r c b)) st = .ok (.ref l) (st.put l (.mat r c fun i j => A.sub (a i j) (b i j))) := by
  simp [aug2, arrOp, matOp, BinOp.entrywise, py, rawOp]
@[py] theorem augR_mul_mat : augR A .mul l (some (.mat r c a)) s st = .ok (.ref l) (st.put l (.mat r c fun i j => A.mul (a i j) s)) := by
  simp [augR, arrOp, matOp, BinOp.entrywise, py, rawOp]
end

/-! ### Methods and functions -/

/-- `x.dot(y)`, `x.copy()` for what was found on the heap. -/
noncomputable def methArr (ext : ℕ → String → List Val → M W Val) (A : Arith) (fuel l : ℕ) (m : String) (args : List Val) (o : Option Obj) : M W Val :=
  match o with
  | some (.vec _ _) => arrayMethod A (.ref l) m args
  | some (.mat _ _ _) => arrayMethod A (.ref l) m args
  | _ => call (mach A ext) (fuel + 1) (.meth (.ref l) m) args

@[py] theorem call_dot (l : ℕ) (w : Val) :
    call (mach A ext) (fuel + 1) (.meth (.ref l) "dot") [w] st = methArr ext A fuel l "dot" [w] (st.heap l) st := by
  cases hl : st.heap l with
  | none => rfl
  | some o => cases o <;> first | rfl | simp only [call, bind_apply, getObj_eq, hl, py, methArr]
@[py] theorem call_copy (l : ℕ) :
    call (mach A ext) (fuel + 1) (.meth (.ref l) "copy") [] st = methArr ext A fuel l "copy" [] (st.heap l) st := by
  cases hl : st.heap l with
  | none => rfl
  | some o => cases o <;> first | rfl | simp only [call, bind_apply, getObj_eq, hl, py, methArr]

section
variable {n r c : ℕ} (l k : ℕ) (x y : Fin n → ℝ) (a : Fin r → Fin c → ℝ)
@[py] theorem methArr_dot (w : Val) : methArr ext A fuel l "dot" [w] (some (.vec n x)) st = dotOf A (.ref l) w st := rfl
@[py] theorem methArr_copy : methArr ext A fuel l "copy" [] (some (.vec n x)) st = copyOf (.ref l) st := rfl
@[py] theorem methArr_copy_mat : methArr ext A fuel l "copy" [] (some (.mat r c a)) st = copyOf (.ref l) st := rfl

/-- The scalar product of what was found on the heap. -/
noncomputable def dotArr (A : Arith) (o p : Option Obj) : M W Val :=
  match o, p with
  | some (.vec n x), some (.vec m y) => if h : m = n then M.pure (.num (A.dot x (fun i => y (Fin.cast h.symm i)))) else M.stuck
  | some (.mat r c x), some (.vec n y) => M.bind (arrOp A .matmul (.obj (.mat r c x)) (.obj (.vec n y))) allocObj
  | _, _ => M.stuck

@[py] theorem dotOf_rr : dotOf A (.ref l) (.ref k) st = dotArr A (st.heap l) (st.heap k) st := by
  simp only [dotOf, operand, bind_apply, getObj_eq]
  cases hl : st.heap l with
  | none => rfl
  | some o =>
    simp only [readObj, py, getObj_eq]
    cases hk : st.heap k with
    | none => cases o <;> rfl
    | some p => cases o <;> cases p <;> rfl
@[py] theorem dotArr_vec : dotArr A (some (.vec n x)) (some (.vec n y)) st = .ok (.num (A.dot x y)) st := by
  simp [dotArr, py]
@[py] theorem dotArr_mat (m : Fin n → Fin n → ℝ) :
    dotArr A (some (.mat n n m)) (some (.vec n x)) st = .ok (.ref st.next) (st.alloc (.vec n (A.mv (Matrix.of m) x))) := by
  simp only [dotArr, arrOp, and_self, dite_true, bind_apply, Fin.cast_eq_self]; rfl

/-- A copy of what was found on the heap. -/
noncomputable def copyArr (o : Option Obj) : M W Val :=
  match o with
  | some .user => M.stuck
  | some o => allocObj o
  | none => M.stuck

@[py] theorem copyOf_ref : copyOf (.ref l) st = copyArr (st.heap l) st := by
  simp only [copyOf, bind_apply, getObj_eq]
  cases st.heap l with
  | none => rfl
  | some o => cases o <;> rfl
@[py] theorem copyArr_vec : copyArr (some (.vec n x)) st = .ok (.ref st.next) (st.alloc (.vec n x)) := rfl
@[py] theorem copyArr_mat : copyArr (some (.mat r c a)) st = .ok (.ref st.next) (st.alloc (.mat r c a)) := rfl

/-- `np.outer` of what was found on the heap. -/
noncomputable def outerArr (A : Arith) (o p : Option Obj) : M W Val :=
  match o, p with
  | some (.vec n x), some (.vec m y) => allocObj (.mat n m fun i j => A.mul (x i) (y j))
  | _, _ => M.stuck

@[py] theorem np_outer_rr : builtin A "np.outer" [.ref l, .ref k] st = outerArr A (st.heap l) (st.heap k) st := by
  simp only [builtin, bind_apply, getObj_eq]
  cases hl : st.heap l with
  | none => rfl
  | some o =>
    simp only [readObj, py, getObj_eq]
    cases hk : st.heap k with
    | none => cases o <;> rfl
    | some p => cases o <;> cases p <;> rfl
@[py] theorem outerArr_vec {m : ℕ} (z : Fin m → ℝ) : outerArr A (some (.vec n x)) (some (.vec m z)) st
    = .ok (.ref st.next) (st.alloc (.mat n m fun i j => A.mul (x i) (z j))) := rfl

/-- `len` of what was found on the heap. -/
noncomputable def lenArr (o : Option Obj) : M W Val :=
  match o with
  | some (.vec n _) => M.pure (.int n)
  | some (.mat r _ _) => M.pure (.int r)
  | _ => M.stuck

@[py] theorem len_ref : lenOf (.ref l) st = lenArr (st.heap l) st := by
  simp only [lenOf, bind_apply, getObj_eq]
  cases st.heap l with
  | none => rfl
  | some o => cases o <;> rfl
@[py] theorem lenArr_vec : lenArr (some (.vec n x)) st = .ok (.int n) st := rfl
@[py] theorem lenArr_mat : lenArr (some (.mat r c a)) st = .ok (.int r) st := rfl

@[py] theorem np_eye (n : ℕ) : builtin A "np.eye" [.int n] st = .ok (.ref st.next) (st.alloc (.mat n n fun i j => if i = j then 1 else 0)) := rfl

/-- The elements of what was found on the heap. -/
noncomputable def iterArr (o : Option Obj) : M W (List Val) :=
  match o with
  | some (.vec _ x) => M.pure (List.ofFn fun i => .num (x i))
  | _ => M.stuck

@[py] theorem iterate_ref : iterate (.ref l) st = iterArr (st.heap l) st := by
  simp only [iterate, bind_apply, getObj_eq]
  cases st.heap l with
  | none => rfl
  | some o => cases o <;> rfl
@[py] theorem iterArr_vec : iterArr (some (.vec n x)) st = .ok (List.ofFn fun i => .num (x i)) st := rfl

end

/-! ### Distinct locations -/

theorem lt_ne_add {l n : ℕ} (h : l < n) (k : ℕ) : (l = n + k) = False := by simp; omega
theorem lt_ne {l n : ℕ} (h : l < n) : (l = n) = False := by simp; omega

attribute [py] Nat.add_assoc

end Ellalgo.Py
