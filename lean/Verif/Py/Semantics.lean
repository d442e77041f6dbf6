import Verif.Py.Syntax
import Verif.Model.Rounded
import Mathlib.Analysis.SpecialFunctions.Log.Base
import Mathlib.Analysis.SpecialFunctions.Trigonometric.Basic
import Mathlib.Analysis.SpecialFunctions.Pow.Real
import Mathlib.Algebra.Order.Round
import Mathlib.Analysis.SpecialFunctions.Complex.Log

/-!
# Meaning of Python programs

An evaluator for the syntax of `Py/Syntax`. It is written from the Python and NumPy reference manuals and does not mention ellalgo.

* Floats are reals and every operation on them is the one of a machine arithmetic `A : Arith` (`Model/Rounded`); integers are exact. `x ** 2` is the rounded product of `x` with itself.
* Objects and arrays live on a heap, so two names may stand for the same array, and `x -= y` changes an array in place. Lists and tuples are values; no statement of the subset changes a list.
* A slice of an array is a copy. (In NumPy it is a view; the difference shows only if the view or the array is written to later.)
* A function that is defined inside of another one sees the variables of the outer function as they are at the time of its definition.
* Exceptions are outcomes, with the state at the time they are raised.
* What leaves the subset is the outcome `stuck`: arrays of different shapes, values of unexpected types, calls nested deeper than `fuel`. No theorem says anything about a program that gets stuck.
* Division by a float zero raises `ZeroDivisionError`, also for NumPy scalars and arrays (NumPy would produce infinities or NaN, which are not numbers of this model).
* `copy.deepcopy` copies every object of the heap (except those of the user) to a new location; what the copy does not reach is garbage.
* `float("-inf")` is a value of its own that can be stored and compared with numbers; every other use of it is stuck. So is every use of `np.pi` but as a bound of `np.linspace` and behind an integer and an operator.
* `np.linspace`, `np.cos`, `np.log10`, `pow` and the like are the exact functions, rounded; so are `np.sum`, `np.fft.fft`, `np.fft.ifft` and `np.convolve`.
* A handler of a `try` sees the variables as they were before the `try`, and the message of an exception is not computed.
* A default argument is evaluated at every call that leaves the argument out (Python evaluates it once, when the function is defined).
* Objects of the user (oracles, search spaces) are `Obj.user`. Their methods are the parameter `ext`. They may read and change the whole state, which includes a component `world` of their own.
-/

namespace Ellalgo.Py

open Classical

/-- Values. `glob g` is a function, class, module or member of an enumeration with the name `g`; `meth v m` is the bound method `v.m`. -/
inductive Val
  | none
  | bool (b : Bool)
  | int (k : ℤ)
  | num (x : ℝ)
  | cplx (z : ℂ)
  | str (s : String)
  | tuple (vs : List Val)
  | list (vs : List Val)
  | ref (l : ℕ)
  | glob (g : String)
  | meth (self : Val) (m : String)
  | clos (params : List String) (body : List PStmt) (env : String → Option Val)

/-- Local variables, or the attributes of an object. -/
abbrev Env := String → Option Val

/-- Assignment to a variable. -/
def Env.set (env : Env) (x : String) (v : Val) : Env := fun y => if y = x then some v else env y

/-- No variables. -/
def Env.empty : Env := fun _ => Option.none

/-- Objects on the heap: instances of classes of the program, arrays with one and two axes, arrays of truth values, of complex numbers and of integers, objects of the user. -/
inductive Obj
  | inst (cls : String) (attrs : Env)
  | vec (n : ℕ) (x : Fin n → ℝ)
  | mat (r c : ℕ) (x : Fin r → Fin c → ℝ)
  | mask (n : ℕ) (x : Fin n → Prop)
  | cvec (n : ℕ) (x : Fin n → ℂ)
  | ivec (n : ℕ) (x : Fin n → ℤ)
  | user

/-- The state: a heap, the next free location, and whatever the objects of the user keep elsewhere. -/
structure St (W : Type) where
  heap : ℕ → Option Obj
  next : ℕ
  world : W

/-- Outcomes. -/
inductive Res (W α : Type)
  | ok (a : α) (st : St W)
  | exc (name : String) (st : St W)
  | stuck

/-- Computations. -/
abbrev M (W α : Type) := St W → Res W α

variable {W α β : Type}

/-- Sequencing. -/
def M.bind (m : M W α) (f : α → M W β) : M W β := fun st =>
  match m st with
  | .ok a st' => f a st'
  | .exc e st' => .exc e st'
  | .stuck => .stuck

def M.pure (a : α) : M W α := fun st => .ok a st

instance : Monad (M W) where
  pure := M.pure
  bind := M.bind

def M.exc (e : String) : M W α := fun st => .exc e st
def M.stuck : M W α := fun _ => .stuck

/-- Go on after an exception. -/
def M.catch (m : M W α) (h : String → M W α) : M W α := fun st =>
  match m st with
  | .ok a st' => .ok a st'
  | .exc e st' => h e st'
  | .stuck => .stuck

/-- The object at a location. -/
def getObj (l : ℕ) : M W Obj := fun st =>
  match st.heap l with
  | some o => .ok o st
  | Option.none => .stuck

/-- Write an object. -/
def St.put (st : St W) (l : ℕ) (o : Obj) : St W := { st with heap := fun k => if k = l then some o else st.heap k }

def putObj (l : ℕ) (o : Obj) : M W Unit := fun st => .ok () (st.put l o)

/-- A new object. -/
def St.alloc (st : St W) (o : Obj) : St W := { (st.put st.next o) with next := st.next + 1 }

def allocObj (o : Obj) : M W Val := fun st => .ok (.ref st.next) (st.alloc o)

/-! ### Numbers -/

/-- A number as a float. -/
def Val.toFloat (A : Arith) : Val → Option ℝ
  | .num x => some x
  | .int k => some (A.rnd k)
  | _ => Option.none

/-- A number, exactly. -/
def Val.toReal : Val → Option ℝ
  | .num x => some x
  | .int k => some (k : ℝ)
  | _ => Option.none

/-- Functions, modules and the constants that are not numbers here: minus infinity and `np.pi`. -/
def Val.isGlob : Val → Bool
  | .glob _ => true
  | _ => false

/-- Minus infinity. -/
def Val.ninf : Val := .glob "-inf"

/-- Something that is no number where a number is needed. -/
def notNum (v : Val) : M W α := if v.isGlob then M.stuck else M.exc "TypeError"

/-- An operation on two floats. -/
noncomputable def floatOp (A : Arith) (op : BinOp) (x y : ℝ) : M W ℝ :=
  match op with
  | .add => M.pure (A.add x y)
  | .sub => M.pure (A.sub x y)
  | .mul => M.pure (A.mul x y)
  | .div => if y = 0 then M.exc "ZeroDivisionError" else M.pure (A.div x y)
  | _ => M.stuck

/-- An operation on two integers. -/
noncomputable def intOp (A : Arith) (op : BinOp) (a b : ℤ) : M W Val :=
  match op with
  | .add => M.pure (.int (a + b))
  | .sub => M.pure (.int (a - b))
  | .mul => M.pure (.int (a * b))
  | .div => if b = 0 then M.exc "ZeroDivisionError" else M.pure (.num (A.rnd ((a : ℝ) / b)))
  | _ => M.stuck

/-- `x op y` for a float `x` on the left; `x ** 2` is the only power. -/
noncomputable def numOp (A : Arith) (op : BinOp) (v w : Val) : M W Val :=
  match v, w with
  | .int a, .int b => intOp A op a b
  | .num x, .int b =>
    match op with
    | .pow => if b = 2 then M.pure (.num (A.mul x x)) else M.stuck
    | _ => M.bind (floatOp A op x (A.rnd b)) fun z => M.pure (.num z)
  | .int a, .num y => M.bind (floatOp A op (A.rnd a) y) fun z => M.pure (.num z)
  | .num x, .num y => M.bind (floatOp A op x y) fun z => M.pure (.num z)
  | .int a, .glob g => if g = "np.pi" then M.bind (floatOp A op (A.rnd a) (A.rnd Real.pi)) fun z => M.pure (.num z) else M.stuck
  | v, w => if w.isGlob then M.stuck else notNum v

/-! ### Arrays -/

/-- An operation on floats where the divisor is not zero. -/
noncomputable def rawOp (A : Arith) (op : BinOp) (x y : ℝ) : ℝ :=
  match op with
  | .add => A.add x y
  | .sub => A.sub x y
  | .mul => A.mul x y
  | .div => A.div x y
  | _ => 0

/-- The operations that act entry by entry. -/
def BinOp.entrywise : BinOp → Bool
  | .add | .sub | .mul | .div => true
  | _ => false

/-- Entry by entry, with the check for a division by zero. -/
noncomputable def vecOp (A : Arith) (op : BinOp) {n : ℕ} (x y : Fin n → ℝ) : M W Obj :=
  if !op.entrywise then M.stuck
  else if op = .div ∧ ∃ i, y i = 0 then M.exc "ZeroDivisionError"
  else M.pure (.vec n fun i => rawOp A op (x i) (y i))

noncomputable def matOp (A : Arith) (op : BinOp) {r c : ℕ} (x y : Fin r → Fin c → ℝ) : M W Obj :=
  if !op.entrywise then M.stuck
  else if op = .div ∧ ∃ i j, y i j = 0 then M.exc "ZeroDivisionError"
  else M.pure (.mat r c fun i j => rawOp A op (x i j) (y i j))

/-- A complex number with both parts rounded. -/
noncomputable def crnd (A : Arith) (z : ℂ) : ℂ := ⟨A.rnd z.re, A.rnd z.im⟩

/-- Entry by entry for complex numbers; division is not in the subset. -/
noncomputable def cvecOp (A : Arith) (op : BinOp) {n : ℕ} (x y : Fin n → ℂ) : M W Obj :=
  match op with
  | .add => M.pure (.cvec n fun i => ⟨A.add (x i).re (y i).re, A.add (x i).im (y i).im⟩)
  | .sub => M.pure (.cvec n fun i => ⟨A.sub (x i).re (y i).re, A.sub (x i).im (y i).im⟩)
  | .mul => M.pure (.cvec n fun i => ⟨A.sub (A.mul (x i).re (y i).re) (A.mul (x i).im (y i).im), A.add (A.mul (x i).re (y i).im) (A.mul (x i).im (y i).re)⟩)
  | _ => M.stuck

/-- An operand of an array operation. -/
inductive Operand
  | scalar (x : ℝ)
  | cscalar (z : ℂ)
  | obj (o : Obj)

/-- Look at a value as an operand. -/
noncomputable def operand (A : Arith) (v : Val) : M W Operand :=
  match v with
  | .num x => M.pure (.scalar x)
  | .int k => M.pure (.scalar (A.rnd k))
  | .cplx z => M.pure (.cscalar z)
  | .ref l => M.bind (getObj l) fun o => M.pure (.obj o)
  | v => notNum v

/-- `v op w` where at least one of them is an array; the result is a new object that is not yet on the heap. -/
noncomputable def arrOp (A : Arith) (op : BinOp) (a b : Operand) : M W Obj :=
  match a, b with
  | .scalar x, .obj (.vec _ y) => vecOp A op (fun _ => x) y
  | .scalar x, .obj (.mat _ _ y) => matOp A op (fun _ _ => x) y
  | .obj (.vec _ x), .scalar y => vecOp A op x (fun _ => y)
  | .obj (.mat _ _ x), .scalar y => matOp A op x (fun _ _ => y)
  | .obj (.vec n x), .obj (.vec m y) =>
    if h : m = n then vecOp A op x (fun i => y (Fin.cast h.symm i)) else M.stuck
  | .obj (.mat r c x), .obj (.mat r' c' y) =>
    if h : r' = r ∧ c' = c then matOp A op x (fun i j => y (Fin.cast h.1.symm i) (Fin.cast h.2.symm j)) else M.stuck
  | .obj (.mat r c x), .obj (.vec n y) =>
    if h : r = n ∧ c = n then
      match op with
      | .matmul => M.pure (.vec n (A.mv (Matrix.of fun i j => x (Fin.cast h.1.symm i) (Fin.cast h.2.symm j)) y))
      | _ => M.stuck
    else if h : c = n then
      match op with
      | .matmul => M.pure (.vec r fun i => A.dot (x i) (fun j => y (Fin.cast h j)))
      | _ => M.stuck
    else M.stuck
  | .cscalar z, .obj (.cvec _ y) => cvecOp A op (fun _ => z) y
  | .cscalar z, .obj (.vec _ y) => cvecOp A op (fun _ => z) (fun i => (y i : ℂ))
  | .obj (.vec n x), .obj (.cvec m y) => if h : m = n then cvecOp A op (fun i => (x i : ℂ)) (fun i => y (Fin.cast h.symm i)) else M.stuck
  | _, _ => M.stuck

/-- `v op w` where at least one of them is an array: a new array, or a number for the scalar product `x @ y`. `x ** 2` is the only power. -/
noncomputable def arrVal (A : Arith) (op : BinOp) (a b : Operand) : M W Val :=
  match op, a, b with
  | .matmul, .obj (.vec n x), .obj (.vec m y) => if h : m = n then M.pure (.num (A.dot x (fun i => y (Fin.cast h.symm i)))) else M.stuck
  | .pow, .obj (.vec n x), .scalar y => if y = 2 then allocObj (.vec n fun i => A.mul (x i) (x i)) else M.stuck
  | op, a, b => M.bind (arrOp A op a b) allocObj

/-- Is the value on the heap? -/
def Val.isRef : Val → Bool
  | .ref _ => true
  | _ => false

/-- `v op w`. -/
noncomputable def binOp (A : Arith) (op : BinOp) (v w : Val) : M W Val :=
  if v.isRef || w.isRef then
    M.bind (operand A v) fun a => M.bind (operand A w) fun b => arrVal A op a b
  else numOp A op v w

/-- The new value of `v` in `v op= w`: an array is changed in place. -/
noncomputable def augOp (A : Arith) (op : BinOp) (v w : Val) : M W Val :=
  match v with
  | .ref l =>
    M.bind (operand A v) fun a => M.bind (operand A w) fun b => M.bind (arrOp A op a b) fun o =>
      M.bind (putObj l o) fun _ => M.pure v
  | _ => binOp A op v w

/-- `-v`. -/
noncomputable def negOp (v : Val) : M W Val :=
  match v with
  | .int k => M.pure (.int (-k))
  | .num x => M.pure (.num (-x))
  | .ref l => M.bind (getObj l) fun o =>
    match o with
    | .vec n x => allocObj (.vec n fun i => -x i)
    | .mat r c x => allocObj (.mat r c fun i j => -x i j)
    | .cvec n x => allocObj (.cvec n fun i => -x i)
    | _ => M.stuck
  | v => notNum v

/-- Truth value. -/
noncomputable def truthy (v : Val) : M W Bool :=
  match v with
  | .none => M.pure false
  | .bool b => M.pure b
  | .int k => M.pure (decide (k ≠ 0))
  | .num x => M.pure (decide (x ≠ 0))
  | .tuple vs => M.pure (!vs.isEmpty)
  | .list vs => M.pure (!vs.isEmpty)
  | _ => M.stuck

/-- Comparison of two numbers by size. -/
noncomputable def ordOp (op : CmpOp) (x y : ℝ) : Bool :=
  match op with
  | .lt => decide (x < y)
  | .le => decide (x ≤ y)
  | .gt => decide (x > y)
  | .ge => decide (x ≥ y)
  | .eq => decide (x = y)
  | .ne => decide (x ≠ y)
  | _ => false

/-- Equality of values that are no arrays. -/
noncomputable def eqOp (v w : Val) : M W Bool :=
  match v.toReal, w.toReal with
  | some x, some y => M.pure (decide (x = y))
  | _, _ =>
    match v, w with
    | .glob g, .glob h => M.pure (decide (g = h))
    | .str s, .str t => M.pure (decide (s = t))
    | .bool a, .bool b => M.pure (a == b)
    | .none, .none => M.pure true
    | .none, _ => M.pure false
    | _, .none => M.pure false
    | _, _ => M.stuck

/-- Is it `None`? -/
def Val.isNone : Val → Bool
  | .none => true
  | _ => false

/-- `v op w`; comparison of an array with a number gives a mask; `is` is used with `None` only. -/
noncomputable def cmpOp (op : CmpOp) (v w : Val) : M W Val :=
  match op with
  | .is => if w.isNone then M.pure (.bool v.isNone) else M.stuck
  | .isNot => if w.isNone then M.pure (.bool (!v.isNone)) else M.stuck
  | .eq =>
    match v with
    | .ref l => M.bind (getObj l) fun o =>
      match o, w.toReal with
      | .vec n x, some y => allocObj (.mask n fun i => x i = y)
      | _, _ => M.stuck
    | _ => M.bind (eqOp v w) fun b => M.pure (.bool b)
  | .ne => M.bind (eqOp v w) fun b => M.pure (.bool (!b))
  | _ =>
    match v.toReal, w.toReal with
    | some x, some y => M.pure (.bool (ordOp op x y))
    | some _, Option.none =>
      match w with
      | .glob g => if g = "-inf" then M.pure (.bool (decide (op = .gt ∨ op = .ge))) else M.stuck
      | .ref _ => M.stuck
      | _ => M.exc "TypeError"
    | Option.none, _ => if v.isRef then M.stuck else notNum v

/-! ### Indices -/

/-- An index as a position in a sequence of `n` elements; negative indices count from the end. -/
def normIdx (n : ℕ) (k : ℤ) : Option ℕ :=
  if 0 ≤ k ∧ k < n then some k.toNat else if -n ≤ k ∧ k < 0 then some (k + n).toNat else Option.none

/-- An entry, zero outside of the array. -/
noncomputable def at1 {n : ℕ} (x : Fin n → ℝ) (k : ℕ) : ℝ := if h : k < n then x ⟨k, h⟩ else 0

noncomputable def at2 {r c : ℕ} (x : Fin r → Fin c → ℝ) (i j : ℕ) : ℝ := if h : i < r then at1 (x ⟨i, h⟩) j else 0

noncomputable def atc {n : ℕ} (x : Fin n → ℂ) (k : ℕ) : ℂ := if h : k < n then x ⟨k, h⟩ else 0

/-- An index: an integer, a slice with both bounds inside of the array, a mask, the slice `::-1`, or an array of positions. -/
inductive Idx
  | pos (k : ℤ)
  | slice (lo hi : Option ℤ)
  | mask (n : ℕ) (b : Fin n → Prop)
  | rev
  | many (n : ℕ) (k : Fin n → ℤ)

/-- The range of a slice; stuck unless `0 ≤ lo ≤ hi ≤ n`. -/
def sliceRange (n : ℕ) (lo hi : Option ℤ) : M W (ℕ × ℕ) :=
  let a := lo.getD 0
  let b := hi.getD n
  if 0 ≤ a ∧ a ≤ b ∧ b ≤ n then M.pure (a.toNat, b.toNat) else M.stuck

/-- `n` if it is one, otherwise an exception. -/
def orIndexError (o : Option ℕ) : M W ℕ :=
  match o with
  | some k => M.pure k
  | Option.none => M.exc "IndexError"

/-- `v[is]`. -/
noncomputable def getItem (v : Val) (is : List Idx) : M W Val :=
  match v with
  | .tuple vs | .list vs =>
    match is with
    | [.pos k] => M.bind (orIndexError (normIdx vs.length k)) fun i =>
      match vs[i]? with
      | some w => M.pure w
      | Option.none => M.stuck
    | _ => M.stuck
  | .ref l => M.bind (getObj l) fun o =>
    match o, is with
    | .vec n x, [.pos k] => M.bind (orIndexError (normIdx n k)) fun i => M.pure (.num (at1 x i))
    | .vec n x, [.slice lo hi] => M.bind (sliceRange n lo hi) fun s => allocObj (.vec (s.2 - s.1) (Arith.slice (at1 x) s.1 s.2))
    | .vec n x, [.rev] => allocObj (.vec n fun i => x i.rev)
    | .vec n x, [.many m k] =>
      if ∀ i, (normIdx n (k i)).isSome then allocObj (.vec m fun i => at1 x ((normIdx n (k i)).getD 0)) else M.exc "IndexError"
    | .cvec n x, [.slice lo hi] => M.bind (sliceRange n lo hi) fun s => allocObj (.cvec (s.2 - s.1) fun i => atc x (s.1 + i))
    | .mat r c x, [.pos a, .pos b] =>
      M.bind (orIndexError (normIdx r a)) fun i => M.bind (orIndexError (normIdx c b)) fun j => M.pure (.num (at2 x i j))
    | .mat r c x, [.pos a, .slice lo hi] =>
      M.bind (orIndexError (normIdx r a)) fun i => M.bind (sliceRange c lo hi) fun s =>
        allocObj (.vec (s.2 - s.1) (Arith.slice (fun k => at2 x i k) s.1 s.2))
    | .mat r c x, [.slice lo hi, .pos b] =>
      M.bind (sliceRange r lo hi) fun s => M.bind (orIndexError (normIdx c b)) fun j =>
        allocObj (.vec (s.2 - s.1) (Arith.slice (fun k => at2 x k j) s.1 s.2))
    | .mat r c x, [.slice lo hi, .slice lo' hi'] =>
      M.bind (sliceRange r lo hi) fun s => M.bind (sliceRange c lo' hi') fun t =>
        allocObj (.mat (s.2 - s.1) (t.2 - t.1) fun i j => at2 x (s.1 + i) (t.1 + j))
    | _, _ => M.stuck
  | _ => M.exc "TypeError"

/-- A number for an entry of an array of floats. -/
noncomputable def entry (A : Arith) (v : Val) : M W ℝ :=
  match v.toFloat A with
  | some x => M.pure x
  | Option.none => M.stuck

/-- `l[lo:hi] = k` for arrays of the same type. -/
noncomputable def setSlice (l k : ℕ) (lo hi : Option ℤ) : M W Unit :=
  M.bind (getObj l) fun o => M.bind (getObj k) fun p =>
    match o, p with
    | .cvec n x, .cvec m y => M.bind (sliceRange n lo hi) fun s =>
      if m = s.2 - s.1 then putObj l (.cvec n fun i => if s.1 ≤ (i : ℕ) ∧ (i : ℕ) < s.2 then atc y (i - s.1) else x i)
      else if m = 1 then M.stuck else M.exc "ValueError"
    | .vec n x, .vec m y => M.bind (sliceRange n lo hi) fun s =>
      if m = s.2 - s.1 then putObj l (.vec n fun i => if s.1 ≤ (i : ℕ) ∧ (i : ℕ) < s.2 then at1 y (i - s.1) else x i)
      else if m = 1 then M.stuck else M.exc "ValueError"
    | _, _ => M.stuck

/-- `l[is] = w` where `is` is no slice. -/
noncomputable def setEntry (A : Arith) (v : Val) (is : List Idx) (w : Val) : M W Unit :=
  match v with
  | .ref l => M.bind (getObj l) fun o => M.bind (entry A w) fun y =>
    match o, is with
    | .vec n x, [.pos k] => M.bind (orIndexError (normIdx n k)) fun i => putObj l (.vec n fun a => if (a : ℕ) = i then y else x a)
    | .mat r c x, [.pos a, .pos b] =>
      M.bind (orIndexError (normIdx r a)) fun i => M.bind (orIndexError (normIdx c b)) fun j =>
        putObj l (.mat r c fun p q => if (p : ℕ) = i ∧ (q : ℕ) = j then y else x p q)
    | .vec n x, [.mask m b] => if h : n = m then putObj l (.vec n fun i => if b (Fin.cast h i) then y else x i) else M.exc "IndexError"
    | .cvec n x, [.pos k] => M.bind (orIndexError (normIdx n k)) fun i => putObj l (.cvec n fun a => if (a : ℕ) = i then (y : ℂ) else x a)
    | _, _ => M.stuck
  | _ => M.exc "TypeError"

/-- `l[is] = w`. -/
noncomputable def setItem (A : Arith) (v : Val) (is : List Idx) (w : Val) : M W Unit :=
  match is with
  | [.slice lo hi] =>
    match v, w with
    | .ref l, .ref k => setSlice l k lo hi
    | _, _ => M.stuck
  | is => setEntry A v is w

/-! ### Functions of the libraries -/

/-- `range(lo, lo + 1, ..)` with `n` elements. -/
def intsFrom (lo : ℤ) (n : ℕ) : List Val := (List.range n).map fun k : ℕ => .int (lo + k)

/-- The elements over which a loop runs. -/
noncomputable def iterate (v : Val) : M W (List Val) :=
  match v with
  | .tuple vs | .list vs => M.pure vs
  | .ref l => M.bind (getObj l) fun o =>
    match o with
    | .vec _ x => M.pure (List.ofFn fun i => .num (x i))
    | _ => M.stuck
  | _ => M.exc "TypeError"

/-- `isinstance(v, t)` for `int`, `float` and tuples of them. -/
def isInstance (v : Val) : Val → Option Bool
  | .glob "int" => match v with | .int _ | .bool _ => some true | .glob _ => Option.none | _ => some false
  | .glob "float" => match v with | .num _ => some true | .glob _ => Option.none | _ => some false
  | .tuple [.glob "int", .glob "float"] => match v with | .int _ | .bool _ | .num _ => some true | .glob _ => Option.none | _ => some false
  | _ => Option.none

/-- `len(v)`. -/
def lenOf (v : Val) : M W Val :=
  match v with
  | .tuple vs | .list vs => M.pure (.int vs.length)
  | .ref l => M.bind (getObj l) fun o =>
    match o with
    | .vec n _ => M.pure (.int n)
    | .mat r _ _ => M.pure (.int r)
    | _ => M.stuck
  | _ => M.exc "TypeError"

/-- `math.sqrt(x)`. -/
noncomputable def sqrtOf (A : Arith) (v : Val) : M W Val :=
  match v.toFloat A with
  | some x => if x < 0 then M.exc "ValueError" else M.pure (.num (A.rnd (Real.sqrt x)))
  | Option.none => notNum v

/-- `math.log(x)`. -/
noncomputable def logOf (A : Arith) (v : Val) : M W Val :=
  match v.toFloat A with
  | some x => if x ≤ 0 then M.exc "ValueError" else M.pure (.num (A.rnd (Real.log x)))
  | Option.none => notNum v

/-- A function applied to a number or entry by entry. -/
noncomputable def mapNum (A : Arith) (f : ℝ → ℝ) (v : Val) : M W Val :=
  match v with
  | .ref l => M.bind (getObj l) fun o =>
    match o with
    | .vec n x => allocObj (.vec n fun i => f (x i))
    | .mat r c x => allocObj (.mat r c fun i j => f (x i j))
    | _ => M.stuck
  | v =>
    match v.toFloat A with
    | some x => M.pure (.num (f x))
    | Option.none => notNum v

/-- `np.exp(v)`. -/
noncomputable def expOf (A : Arith) (v : Val) : M W Val :=
  match v with
  | .ref l => M.bind (getObj l) fun o =>
    match o with
    | .cvec n x => allocObj (.cvec n fun i => crnd A (Complex.exp (x i)))
    | _ => mapNum A (fun x => A.rnd (Real.exp x)) v
  | v => mapNum A (fun x => A.rnd (Real.exp x)) v

/-- The nearest integer, for halves the even one. -/
noncomputable def halfEven (x : ℝ) : ℤ :=
  if Int.fract x < 1 / 2 then ⌊x⌋ else if Int.fract x = 1 / 2 ∧ Even ⌊x⌋ then ⌊x⌋ else ⌊x⌋ + 1

/-- `np.log(v)` for positive numbers; the logarithm of another number is infinite or no number. -/
noncomputable def npLogOf (A : Arith) (v : Val) : M W Val :=
  match v with
  | .ref l => M.bind (getObj l) fun o =>
    match o with
    | .vec n x => if ∀ i, 0 < x i then allocObj (.vec n fun i => A.rnd (Real.log (x i))) else M.stuck
    | _ => M.stuck
  | v =>
    match v.toFloat A with
    | some x => if 0 < x then M.pure (.num (A.rnd (Real.log x))) else M.stuck
    | Option.none => notNum v

/-- A bound of `np.linspace`. -/
noncomputable def boundOf (A : Arith) (v : Val) : Option ℝ :=
  match v with
  | .glob g => if g = "np.pi" then some (A.rnd Real.pi) else Option.none
  | v => v.toFloat A

/-- `np.linspace(a, b, n)`: multiples of the step, added to `a`; the last entry is `b`. -/
noncomputable def linspace (A : Arith) (a b : ℝ) (n : ℕ) : Fin n → ℝ := fun i =>
  if (i : ℕ) + 1 = n ∧ 1 < n then b else A.add (A.mul (i : ℕ) (A.div (A.sub b a) (n - 1 : ℕ))) a

/-- Two matrices side by side. -/
def beside {r c d : ℕ} (x : Fin r → Fin c → ℝ) (y : Fin r → Fin d → ℝ) : Fin r → Fin (c + d) → ℝ := fun i => Fin.append (x i) (y i)

/-- `x.dot(y)` and `np.dot(x, y)`. -/
noncomputable def dotOf (A : Arith) (v w : Val) : M W Val :=
  M.bind (operand A v) fun a => M.bind (operand A w) fun b =>
    match a, b with
    | .obj (.vec n x), .obj (.vec m y) =>
      if h : m = n then M.pure (.num (A.dot x (fun i => y (Fin.cast h.symm i)))) else M.stuck
    | .obj (.mat _ _ _), .obj (.vec _ _) => M.bind (arrOp A .matmul a b) allocObj
    | _, _ => M.stuck

/-- `copy.copy(v)` and `v.copy()` for arrays; the other values are immutable. -/
noncomputable def copyOf (v : Val) : M W Val :=
  match v with
  | .ref l => M.bind (getObj l) fun o =>
    match o with
    | .user => M.stuck
    | o => allocObj o
  | v => M.pure v

mutual

/-- A value with every location moved up by `d`. Functions stay as they are. -/
def Val.shift (d : ℕ) : Val → Val
  | .ref l => .ref (l + d)
  | .tuple vs => .tuple (Val.shifts d vs)
  | .list vs => .list (Val.shifts d vs)
  | .meth v m => .meth (v.shift d) m
  | v => v

def Val.shifts (d : ℕ) : List Val → List Val
  | [] => []
  | v :: vs => v.shift d :: Val.shifts d vs

end

/-- The copy of an object whose parts are copied to locations moved up by `d`; objects of the user cannot be copied. -/
def Obj.shift (d : ℕ) : Obj → Option Obj
  | .inst cls attrs => some (.inst cls fun a => (attrs a).map (Val.shift d))
  | .user => Option.none
  | o => some o

/-- The heap with a second copy of everything above it. -/
def St.dup (st : St W) : St W :=
  { st with heap := fun k => if k < st.next then st.heap k else if k < st.next + st.next then (st.heap (k - st.next)).bind (Obj.shift st.next) else Option.none
            next := st.next + st.next }

/-- `copy.deepcopy(v)`. All objects are copied at once, with the references between them; the copies that cannot be reached from the result have no effect. -/
def deepcopyOf (v : Val) : M W Val := fun st => .ok (v.shift st.next) st.dup

/-- Left fold of `+` over values. -/
noncomputable def sumFrom (A : Arith) : Val → List Val → M W Val
  | acc, [] => M.pure acc
  | acc, v :: vs => M.bind (binOp A .add acc v) fun a => sumFrom A a vs

/-- The numbers in a list. -/
noncomputable def floats (A : Arith) : List Val → Option (List ℝ)
  | [] => some []
  | v :: vs =>
    match v.toFloat A, floats A vs with
    | some x, some xs => some (x :: xs)
    | _, _ => Option.none

/-- The discrete Fourier transform. -/
noncomputable def dft {n : ℕ} (x : Fin n → ℂ) : Fin n → ℂ := fun k =>
  ∑ j : Fin n, x j * Complex.exp (-((2 * Real.pi * (j : ℕ) * (k : ℕ) / n : ℝ) : ℂ) * Complex.I)

/-- The inverse discrete Fourier transform. -/
noncomputable def idft {n : ℕ} (x : Fin n → ℂ) : Fin n → ℂ := fun k =>
  (∑ j : Fin n, x j * Complex.exp (((2 * Real.pi * (j : ℕ) * (k : ℕ) / n : ℝ) : ℂ) * Complex.I)) / n

/-- The entries of an array as complex numbers. -/
noncomputable def Obj.toComplex : Obj → Option ((n : ℕ) × (Fin n → ℂ))
  | .vec n x => some ⟨n, fun i => (x i : ℂ)⟩
  | .cvec n x => some ⟨n, x⟩
  | _ => Option.none

/-- Functions of the libraries that are used for spectra and in experiments. -/
noncomputable def builtinSpectral (A : Arith) (g : String) (args : List Val) : M W Val :=
  match g, args with
  | "slice", [v, w, s] => M.pure (.tuple [.str "slice", v, w, s])
  | "np.isfinite", [.ref l] => M.bind (getObj l) fun o =>
    match o with
    | .vec n _ => allocObj (.mask n fun _ => True)
    | _ => M.stuck
  | "np.abs", [v] => mapNum A (fun x => |x|) v
  | "abs", [v] =>
    match v with
    | .int k => M.pure (.int |k|)
    | .num x => M.pure (.num |x|)
    | v => notNum v
  | "np.sum", [.ref l] => M.bind (getObj l) fun o =>
    match o with
    | .vec _ x => M.pure (.num (A.rnd (∑ i, x i)))
    | _ => M.stuck
  | "np.min", [.ref l] => M.bind (getObj l) fun o =>
    match o with
    | .vec n x => if h : 0 < n then M.pure (.num (Finset.univ.inf' ⟨⟨0, h⟩, Finset.mem_univ _⟩ x)) else M.exc "ValueError"
    | _ => M.stuck
  | "np.maximum", [.ref l, .num y] => M.bind (getObj l) fun o =>
    match o with
    | .vec n x => allocObj (.vec n fun i => max (x i) y)
    | _ => M.stuck
  | "np.hstack", [.tuple [.ref l, .ref k]] => M.bind (getObj l) fun o => M.bind (getObj k) fun p =>
    match o, p with
    | .mat r c x, .mat r' d y => if h : r' = r then allocObj (.mat r (c + d) (beside x fun i => y (Fin.cast h.symm i))) else M.exc "ValueError"
    | _, _ => M.stuck
  | "np.linspace endpoint=", [v, w, .int n, .bool false] =>
    match boundOf A v, boundOf A w with
    | some a, some b => allocObj (.vec n.toNat fun i => A.add (A.mul (i : ℕ) (A.div (A.sub b a) n.toNat)) a)
    | _, _ => M.stuck
  | "np.arange step=", [.int lo, .int hi, .int s] =>
    if 0 < s then allocObj (.ivec ((hi - lo + s - 1) / s).toNat fun i => lo + (i : ℕ) * s) else M.stuck
  | "np.fft.fft", [.ref l] => M.bind (getObj l) fun o =>
    match o.toComplex with
    | some ⟨n, x⟩ => if n = 0 then M.exc "ValueError" else allocObj (.cvec n fun k => crnd A (dft x k))
    | Option.none => M.stuck
  | "np.fft.ifft", [.ref l] => M.bind (getObj l) fun o =>
    match o.toComplex with
    | some ⟨n, x⟩ => if n = 0 then M.exc "ValueError" else allocObj (.cvec n fun k => crnd A (idft x k))
    | Option.none => M.stuck
  | "np.fft.ifft", [.ref l, .int m] => M.bind (getObj l) fun o =>
    match o.toComplex with
    | some ⟨_, x⟩ => if m ≤ 0 then M.exc "ValueError" else allocObj (.cvec m.toNat fun k => crnd A (idft (n := m.toNat) (fun j => atc x j) k))
    | Option.none => M.stuck
  | "np.real", [.ref l] => M.bind (getObj l) fun o =>
    match o with
    | .cvec n x => allocObj (.vec n fun i => (x i).re)
    | _ => M.stuck
  | "np.convolve", [.ref l, .ref k] => M.bind (getObj l) fun o => M.bind (getObj k) fun p =>
    match o, p with
    | .vec n x, .vec m y =>
      if n = 0 ∨ m = 0 then M.exc "ValueError"
      else allocObj (.vec (n + m - 1) fun t => A.rnd (∑ i : Fin n, ∑ j : Fin m, if (i : ℕ) + j = t then x i * y j else 0))
    | _, _ => M.stuck
  | _, _ => M.stuck

/-- Functions of the libraries that are used for filters. -/
noncomputable def builtinFilter (A : Arith) (g : String) (args : List Val) : M W Val :=
  match g, args with
  | "np.cos", [v] => mapNum A (fun x => A.rnd (Real.cos x)) v
  | "np.log10", [v] =>
    match v.toFloat A with
    | some x => if 0 < x then M.pure (.num (A.rnd (Real.logb 10 x))) else M.stuck
    | Option.none => M.stuck
  | "pow", [v, w] =>
    match v.toFloat A, w.toFloat A with
    | some x, some y => if 0 < x then M.pure (.num (A.rnd (x ^ y))) else M.stuck
    | _, _ => M.stuck
  | "floor", [v] =>
    match v.toReal with
    | some x => M.pure (.int ⌊x⌋)
    | Option.none => M.stuck
  | "np.ones", [.tuple [.int r, .int c]] => allocObj (.mat r.toNat c.toNat fun _ _ => 1)
  | "np.arange", [.int lo, .int hi] => allocObj (.vec (hi - lo).toNat fun i => ((lo + (i : ℕ) : ℤ) : ℝ))
  | "np.linspace", [v, w, .int n] =>
    match boundOf A v, boundOf A w with
    | some a, some b => allocObj (.vec n.toNat (linspace A a b n.toNat))
    | _, _ => M.stuck
  | "np.concatenate axis=", [.tuple [.ref l, .ref k], .int 1] => M.bind (getObj l) fun o => M.bind (getObj k) fun p =>
    match o, p with
    | .mat r c x, .mat r' d y => if h : r' = r then allocObj (.mat r (c + d) (beside x fun i => y (Fin.cast h.symm i))) else M.exc "ValueError"
    | _, _ => M.stuck
  | _, _ => builtinSpectral A g args

/-- Functions of `builtins`, `math`, `copy` and `numpy`. -/
noncomputable def builtin (A : Arith) (g : String) (args : List Val) : M W Val :=
  match g, args with
  | "sqrt", [v] => sqrtOf A v
  | "math.sqrt", [v] => sqrtOf A v
  | "math.log", [v] => logOf A v
  | "np.sqrt", [v] => sqrtOf A v
  | "np.exp", [v] => expOf A v
  | "np.log", [v] => npLogOf A v
  | "np.round", [v] => mapNum A (fun x => A.rnd (halfEven x)) v
  | "float", [v] =>
    match v with
    | .str "-inf" => M.pure .ninf
    | v =>
      match v.toFloat A with
      | some x => M.pure (.num x)
      | Option.none => M.stuck
  | "int", [v] =>
    match v with
    | .num x => M.pure (.int (if 0 ≤ x then ⌊x⌋ else ⌈x⌉))
    | .int k => M.pure (.int k)
    | _ => M.stuck
  | "len", [v] => lenOf v
  | "isinstance", [v, t] =>
    match isInstance v t with
    | some b => M.pure (.bool b)
    | Option.none => M.stuck
  | "range", [.int n] => M.pure (.list (intsFrom 0 n.toNat))
  | "range", [.int lo, .int hi] => M.pure (.list (intsFrom lo (hi - lo).toNat))
  | "range", [.int hi, .int lo, .int step] =>
    if step = -1 then M.pure (.list ((List.range (hi - lo).toNat).map fun k : ℕ => .int (hi - k))) else M.stuck
  | "zip", [v, w] =>
    M.bind (iterate v) fun xs => M.bind (iterate w) fun ys => M.pure (.list (List.zipWith (fun a b => .tuple [a, b]) xs ys))
  | "sum", [v] => M.bind (iterate v) fun xs => sumFrom A (.int 0) xs
  | "type", [v] =>
    match v with
    | .num _ => M.pure (.glob "float")
    | .int _ => M.pure (.glob "int")
    | _ => M.stuck
  | "copy.copy", [v] => copyOf v
  | "copy.deepcopy", [v] => deepcopyOf v
  | "np.all", [.ref l] => M.bind (getObj l) fun o =>
    match o with
    | .mask _ x => M.pure (.bool (decide (∀ i, x i)))
    | _ => M.stuck
  | "np.eye", [.int n] => allocObj (.mat n.toNat n.toNat fun i j => if i = j then 1 else 0)
  | "np.diag", [v] => M.bind (iterate v) fun xs =>
    match floats A xs with
    | some ys => allocObj (.mat ys.length ys.length fun i j => if i = j then ys.get i else 0)
    | Option.none => M.stuck
  | "np.outer", [.ref l, .ref k] => M.bind (getObj l) fun o => M.bind (getObj k) fun p =>
    match o, p with
    | .vec n x, .vec m y => allocObj (.mat n m fun i j => A.mul (x i) (y j))
    | _, _ => M.stuck
  | "np.zeros", [.int n] => allocObj (.vec n.toNat fun _ => 0)
  | "np.zeros", [.tuple [.int r, .int c]] => allocObj (.mat r.toNat c.toNat fun _ _ => 0)
  | "np.array", [v] => M.bind (iterate v) fun xs =>
    match floats A xs with
    | some ys => allocObj (.vec ys.length ys.get)
    | Option.none => M.stuck
  | "np.dot", [v, w] => dotOf A v w
  | _, _ => builtinFilter A g args

/-- Methods of arrays. -/
noncomputable def arrayMethod (A : Arith) (v : Val) (m : String) (args : List Val) : M W Val :=
  match m, args with
  | "dot", [w] => dotOf A v w
  | "copy", [] => copyOf v
  | _, _ => M.stuck

/-! ### Programs -/

/-- A program: its modules. Names are global. -/
abbrev Prog := List PModule

def Prog.fun? (p : Prog) (f : String) : Option PFun := (p.flatMap PModule.funs).find? fun g => g.name == f
def Prog.class? (p : Prog) (c : String) : Option PClass := (p.flatMap PModule.classes).find? fun k => k.name == c
def Prog.method? (p : Prog) (c m : String) : Option PFun := (p.class? c).bind fun k => k.methods.find? fun g => g.name == m
def Prog.classAttr? (p : Prog) (c a : String) : Option PExpr := (p.class? c).bind fun k => k.attrs.lookup a

/-- Names that are not variables. -/
def libraryNames : List String :=
  ["sqrt", "float", "int", "len", "range", "zip", "sum", "isinstance", "type", "np", "math", "copy", "CutStatus", "floor", "pow", "slice", "abs"]

def Prog.isGlobal (p : Prog) (x : String) : Bool :=
  libraryNames.contains x || (p.fun? x).isSome || (p.class? x).isSome

/-- What a program runs on: the arithmetic, the modules, the methods of the user's objects. -/
structure Machine (W : Type) where
  A : Arith
  prog : Prog
  ext : ℕ → String → List Val → M W Val

/-! ### Evaluation -/

/-- How a statement ends. -/
inductive Flow
  | next (env : Env)
  | ret (v : Val)
  | brk (env : Env)
  | cont (env : Env)

/-- The value of a literal with a point or an exponent. -/
noncomputable def literal (A : Arith) (m e : ℕ) (big : Bool) : ℝ :=
  A.rnd (if big then (m : ℝ) * 10 ^ e else (m : ℝ) / 10 ^ e)

/-- The value of the right side of an assignment in the body of a class. -/
noncomputable def constant (A : Arith) : PExpr → M W Val
  | .none => M.pure .none
  | .bool b => M.pure (.bool b)
  | .int n => M.pure (.int n)
  | .neg (.int n) => M.pure (.int (-n))
  | .dec m e b => M.pure (.num (literal A m e b))
  | _ => M.stuck

/-- `v.a`. -/
noncomputable def getAttr (mc : Machine W) (call : Val → List Val → M W Val) (v : Val) (a : String) : M W Val :=
  match v with
  | .glob g => M.pure (.glob (g ++ "." ++ a))
  | .ref l => M.bind (getObj l) fun o =>
    match o with
    | .inst cls attrs =>
      match attrs a with
      | some w => M.pure w
      | Option.none =>
        match mc.prog.method? cls a with
        | some f => if f.isProperty then call (.meth v a) [] else M.pure (.meth v a)
        | Option.none =>
          match mc.prog.classAttr? cls a with
          | some e => constant mc.A e
          | Option.none => M.exc "AttributeError"
    | .vec n _ => M.pure (if a = "shape" then .tuple [.int n] else .meth v a)
    | .mat r c _ => M.pure (if a = "shape" then .tuple [.int r, .int c] else .meth v a)
    | _ => M.pure (.meth v a)
  | _ => M.stuck

/-- `v.a = w`. -/
def setAttr (v : Val) (a : String) (w : Val) : M W Unit :=
  match v with
  | .ref l => M.bind (getObj l) fun o =>
    match o with
    | .inst cls attrs => putObj l (.inst cls (attrs.set a w))
    | _ => M.stuck
  | _ => M.stuck

/-- A value as an index. -/
def toIdx (v : Val) : M W Idx :=
  match v with
  | .int k => M.pure (.pos k)
  | .tuple [.str "slice", lo, hi] =>
    match lo, hi with
    | .int a, .int b => M.pure (.slice (some a) (some b))
    | .none, .int b => M.pure (.slice Option.none (some b))
    | .int a, .none => M.pure (.slice (some a) Option.none)
    | .none, .none => M.pure (.slice Option.none Option.none)
    | _, _ => M.stuck
  | .tuple [.str "slice", lo, hi, s] =>
    match lo, hi, s with
    | .none, .none, .int k => if k = -1 then M.pure .rev else M.stuck
    | _, _, _ => M.stuck
  | .ref l => M.bind (getObj l) fun o =>
    match o with
    | .mask n b => M.pure (.mask n b)
    | .ivec n k => M.pure (.many n k)
    | _ => M.stuck
  | _ => M.exc "TypeError"

def toIdxs : List Val → M W (List Idx)
  | [] => M.pure []
  | v :: vs => M.bind (toIdx v) fun i => M.bind (toIdxs vs) fun is => M.pure (i :: is)

/-- Bind the names of a comprehension. -/
noncomputable def bindNames (xs : List String) (v : Val) (env : Env) : M W Env :=
  match xs with
  | [x] => M.pure (env.set x v)
  | xs => M.bind (iterate v) fun vs =>
    if vs.length = xs.length then M.pure ((xs.zip vs).foldl (fun e p => e.set p.1 p.2) env) else M.exc "ValueError"

/-- Apply a computation to each element. -/
def mapList (f : α → M W β) : List α → M W (List β)
  | [] => M.pure []
  | a :: as => M.bind (f a) fun b => M.bind (mapList f as) fun bs => M.pure (b :: bs)

mutual

/-- The value of an expression. -/
noncomputable def eval (mc : Machine W) (call : Val → List Val → M W Val) (env : Env) : PExpr → M W Val
  | .none => M.pure .none
  | .bool b => M.pure (.bool b)
  | .int n => M.pure (.int n)
  | .dec m e b => M.pure (.num (literal mc.A m e b))
  | .imag m e b => M.pure (.cplx ⟨0, literal mc.A m e b⟩)
  | .str s => M.pure (.str s)
  | .name x =>
    match env x with
    | some v => M.pure v
    | Option.none => if mc.prog.isGlobal x then M.pure (.glob x) else M.exc "NameError"
  | .attr e a => M.bind (eval mc call env e) fun v => getAttr mc call v a
  | .bin op l r => M.bind (eval mc call env l) fun v => M.bind (eval mc call env r) fun w => binOp mc.A op v w
  | .neg e => M.bind (eval mc call env e) negOp
  | .not e => M.bind (eval mc call env e) fun v => M.bind (truthy v) fun b => M.pure (.bool (!b))
  | .cmp op l r => M.bind (eval mc call env l) fun v => M.bind (eval mc call env r) fun w => cmpOp op v w
  | .and l r => M.bind (eval mc call env l) fun v => M.bind (truthy v) fun b => if b then eval mc call env r else M.pure v
  | .or l r => M.bind (eval mc call env l) fun v => M.bind (truthy v) fun b => if b then M.pure v else eval mc call env r
  | .ite c t e => M.bind (eval mc call env c) fun v => M.bind (truthy v) fun b => if b then eval mc call env t else eval mc call env e
  | .tuple es => M.bind (evals mc call env es) fun vs => M.pure (.tuple vs)
  | .list es => M.bind (evals mc call env es) fun vs => M.pure (.list vs)
  | .call f args => M.bind (eval mc call env f) fun v => M.bind (evals mc call env args) fun vs => call v vs
  | .index e is => M.bind (eval mc call env e) fun v => M.bind (evals mc call env is) fun vs => M.bind (toIdxs vs) fun ks => getItem v ks
  | .slice lo hi => M.bind (eval mc call env lo) fun a => M.bind (eval mc call env hi) fun b => M.pure (.tuple [.str "slice", a, b])
  | .lam xs e => M.pure (.clos xs [.ret e] env)
  | .comp e xs it => M.bind (eval mc call env it) fun v => M.bind (iterate v) fun vs =>
    M.bind (mapList (fun w => M.bind (bindNames xs w env) fun env' => eval mc call env' e) vs) fun ws => M.pure (.list ws)

/-- The values of expressions, from left to right. -/
noncomputable def evals (mc : Machine W) (call : Val → List Val → M W Val) (env : Env) : List PExpr → M W (List Val)
  | [] => M.pure []
  | e :: es => M.bind (eval mc call env e) fun v => M.bind (evals mc call env es) fun vs => M.pure (v :: vs)

end

mutual

/-- Assignment of a value to a target. -/
noncomputable def assignTo (mc : Machine W) (call : Val → List Val → M W Val) (v : Val) (env : Env) : PExpr → M W Env
  | .name x => M.pure (env.set x v)
  | .attr e a => M.bind (eval mc call env e) fun o => M.bind (setAttr o a v) fun _ => M.pure env
  | .index e is => M.bind (eval mc call env e) fun o => M.bind (evals mc call env is) fun vs => M.bind (toIdxs vs) fun ks =>
    M.bind (setItem mc.A o ks v) fun _ => M.pure env
  | .tuple ts => M.bind (iterate v) fun vs => assignTos mc call vs env ts
  | _ => M.stuck

/-- Unpacking. -/
noncomputable def assignTos (mc : Machine W) (call : Val → List Val → M W Val) (vs : List Val) (env : Env) : List PExpr → M W Env
  | [] => if vs.isEmpty then M.pure env else M.exc "ValueError"
  | t :: ts =>
    match vs with
    | v :: vs => M.bind (assignTo mc call v env t) fun env' => assignTos mc call vs env' ts
    | [] => M.exc "ValueError"

end

/-- `t op= e` for a value of the right side that is computed after the old value of the target. -/
noncomputable def augAssign (mc : Machine W) (call : Val → List Val → M W Val) (op : BinOp) (t e : PExpr) (env : Env) : M W Env :=
  match t with
  | .name x => M.bind (eval mc call env t) fun v => M.bind (eval mc call env e) fun w => M.bind (augOp mc.A op v w) fun r => M.pure (env.set x r)
  | .attr o a => M.bind (eval mc call env o) fun b => M.bind (getAttr mc call b a) fun v => M.bind (eval mc call env e) fun w =>
    M.bind (augOp mc.A op v w) fun r => M.bind (setAttr b a r) fun _ => M.pure env
  | .index o is => M.bind (eval mc call env o) fun b => M.bind (evals mc call env is) fun vs => M.bind (toIdxs vs) fun ks =>
    M.bind (getItem b ks) fun v => M.bind (eval mc call env e) fun w => M.bind (augOp mc.A op v w) fun r =>
    M.bind (setItem mc.A b ks r) fun _ => M.pure env
  | _ => M.stuck

/-- A loop over values. -/
def loop (body : Val → Env → M W Flow) : List Val → Env → M W Flow
  | [], env => M.pure (.next env)
  | v :: vs, env => M.bind (body v env) fun f =>
    match f with
    | .next env' => loop body vs env'
    | .cont env' => loop body vs env'
    | .brk env' => M.pure (.next env')
    | .ret w => M.pure (.ret w)

/-- Does a handler for `name` catch the exception `e`? Every exception of the subset is an `Exception`. -/
def catches (e name : String) : Bool :=
  name == e || name == "Exception" || (name == "ArithmeticError" && e == "ZeroDivisionError") || (name == "LookupError" && e == "IndexError")

/-- Is the statement a handler for the exception `e`? -/
def PStmt.handles (e : String) : PStmt → Bool
  | .except names _ => names.any (catches e)
  | _ => false

/-- The name of the exception in a `raise`. -/
def excName : PExpr → Option String
  | .name x => some x
  | .call (.name x) _ => some x
  | _ => Option.none

mutual

/-- Run a statement. -/
noncomputable def exec (mc : Machine W) (call : Val → List Val → M W Val) : PStmt → Env → M W Flow
  | .assign t e, env => M.bind (eval mc call env e) fun v => M.bind (assignTo mc call v env t) fun env' => M.pure (.next env')
  | .aug op t e, env => M.bind (augAssign mc call op t e env) fun env' => M.pure (.next env')
  | .expr e, env => M.bind (eval mc call env e) fun _ => M.pure (.next env)
  | .ite c t e, env => M.bind (eval mc call env c) fun v => M.bind (truthy v) fun b => if b then execs mc call t env else execs mc call e env
  | .for_ t it body, env => M.bind (eval mc call env it) fun v => M.bind (iterate v) fun vs =>
    loop (fun w env => M.bind (assignTo mc call w env t) fun env' => execs mc call body env') vs env
  | .ret e, env => M.bind (eval mc call env e) fun v => M.pure (.ret v)
  | .assert e, env => M.bind (eval mc call env e) fun v => M.bind (truthy v) fun b => if b then M.pure (.next env) else M.exc "AssertionError"
  | .raise e, _ =>
    match excName e with
    | some x => M.exc x
    | Option.none => M.stuck
  | .brk, env => M.pure (.brk env)
  | .cont, env => M.pure (.cont env)
  | .pass, env => M.pure (.next env)
  | .fn x xs body, env => M.pure (.next (env.set x (.clos xs body env)))
  | .try_ body hs, env => M.catch (execs mc call body env) fun e => handle mc call e hs env
  | .except _ body, env => execs mc call body env

/-- Run statements in order. -/
noncomputable def execs (mc : Machine W) (call : Val → List Val → M W Val) : List PStmt → Env → M W Flow
  | [], env => M.pure (.next env)
  | s :: ss, env => M.bind (exec mc call s env) fun f =>
    match f with
    | .next env' => execs mc call ss env'
    | f => M.pure f

/-- Run the first handler for the exception `e`; without one it goes on. -/
noncomputable def handle (mc : Machine W) (call : Val → List Val → M W Val) (e : String) : List PStmt → Env → M W Flow
  | [], _ => M.exc e
  | h :: hs, env => if h.handles e then exec mc call h env else handle mc call e hs env

end

/-- Bind arguments to parameters. -/
def bindArgs : List String → List Val → Env → Option Env
  | [], [], env => some env
  | x :: xs, v :: vs, env => bindArgs xs vs (env.set x v)
  | _, _, _ => Option.none

/-- The result of a function body. -/
def result (f : Flow) : M W Val :=
  match f with
  | .ret v => M.pure v
  | .next _ => M.pure .none
  | _ => M.stuck

/-- Run a body with arguments. -/
noncomputable def runBody (mc : Machine W) (call : Val → List Val → M W Val) (params : List String) (body : List PStmt)
    (args : List Val) (env : Env) : M W Val :=
  match bindArgs params args env with
  | some env' => M.bind (execs mc call body env') result
  | Option.none => M.exc "TypeError"

/-- Run a function; missing arguments at the end have their default values. -/
noncomputable def runFun (mc : Machine W) (call : Val → List Val → M W Val) (f : PFun) (args : List Val) : M W Val :=
  let missing := f.params.length - args.length
  if missing ≤ f.defaults.length then
    M.bind (evals mc call Env.empty (f.defaults.drop (f.defaults.length - missing))) fun ds =>
      runBody mc call f.params f.body (args ++ ds) Env.empty
  else M.exc "TypeError"

/-- Call a value; `fuel` bounds the depth of calls. -/
noncomputable def call (mc : Machine W) : ℕ → Val → List Val → M W Val
  | 0, _, _ => M.stuck
  | fuel + 1, .glob g, args =>
    match mc.prog.fun? g with
    | some f => runFun mc (call mc fuel) f args
    | Option.none =>
      match mc.prog.class? g with
      | some k => M.bind (allocObj (.inst g Env.empty)) fun o =>
        match k.methods.find? fun m => m.name == "__init__" with
        | some f => M.bind (runFun mc (call mc fuel) f (o :: args)) fun _ => M.pure o
        | Option.none => if args.isEmpty then M.pure o else M.exc "TypeError"
      | Option.none => builtin mc.A g args
  | fuel + 1, .meth v m, args =>
    match v with
    | .ref l => M.bind (getObj l) fun o =>
      match o with
      | .inst cls _ =>
        match mc.prog.method? cls m with
        | some f => runFun mc (call mc fuel) f (v :: args)
        | Option.none => M.exc "AttributeError"
      | .user => mc.ext l m args
      | _ => arrayMethod mc.A v m args
    | _ => M.stuck
  | fuel + 1, .clos xs body env, args => runBody mc (call mc fuel) xs body args env
  | _ + 1, _, _ => M.exc "TypeError"

end Ellalgo.Py
