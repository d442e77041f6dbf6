import Mathlib.Data.Nat.Notation

/-!
# Abstract syntax of the part of Python in which ellalgo is written

Annotations, docstrings, comments and imports have no effect at run time and have no counterpart here.
-/

namespace Ellalgo.Py

/-- Binary operators. -/
inductive BinOp
  | add | sub | mul | div | pow | matmul
  deriving DecidableEq, Repr

/-- Comparisons. -/
inductive CmpOp
  | lt | le | gt | ge | eq | ne | is | isNot
  deriving DecidableEq, Repr

/-- Expressions. -/
inductive PExpr
  | none
  | bool (b : Bool)
  | int (n : ℕ)
  /-- A literal with a point or an exponent: `m * 10 ^ (-e)`, or `m * 10 ^ e` if `big`. -/
  | dec (m e : ℕ) (big : Bool)
  /-- The same with a `j` behind it: an imaginary number. -/
  | imag (m e : ℕ) (big : Bool)
  | str (s : String)
  | name (x : String)
  | attr (e : PExpr) (a : String)
  | bin (op : BinOp) (l r : PExpr)
  | neg (e : PExpr)
  | not (e : PExpr)
  | cmp (op : CmpOp) (l r : PExpr)
  | and (l r : PExpr)
  | or (l r : PExpr)
  /-- `t if c else e` -/
  | ite (c t e : PExpr)
  | tuple (es : List PExpr)
  | list (es : List PExpr)
  | call (f : PExpr) (args : List PExpr)
  /-- `e[i]`, `e[i, j]` -/
  | index (e : PExpr) (is : List PExpr)
  /-- `lo:hi` inside an index; a missing bound is `none`. -/
  | slice (lo hi : PExpr)
  | lam (xs : List String) (e : PExpr)
  /-- `e for xs in it`, in brackets or as the only argument of a call -/
  | comp (e : PExpr) (xs : List String) (it : PExpr)
  deriving Repr

/-- Statements. Targets of assignments are expressions. -/
inductive PStmt
  | assign (t e : PExpr)
  | aug (op : BinOp) (t e : PExpr)
  | expr (e : PExpr)
  | ite (c : PExpr) (t e : List PStmt)
  | for_ (t it : PExpr) (body : List PStmt)
  | ret (e : PExpr)
  | assert (e : PExpr)
  | raise (e : PExpr)
  | brk
  | cont
  | pass
  | fn (name : String) (params : List String) (body : List PStmt)
  /-- `try`: the handlers are statements `except`, which occur nowhere else. -/
  | try_ (body handlers : List PStmt)
  /-- `except names as ..:`; the name of the exception object is not kept. -/
  | except (names : List String) (body : List PStmt)
  deriving Repr

/-- A function or method; defaults are those of the last parameters. -/
structure PFun where
  name : String
  params : List String
  defaults : List PExpr
  isProperty : Bool
  body : List PStmt
  deriving Repr

/-- A class: the attributes assigned in its body, and its methods. -/
structure PClass where
  name : String
  attrs : List (String × PExpr)
  methods : List PFun
  deriving Repr

/-- A module. -/
structure PModule where
  funs : List PFun
  classes : List PClass
  deriving Repr

end Ellalgo.Py
