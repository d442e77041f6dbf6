import Verif.Py.Syntax
import Lean.Elab.Command

/-!
# Reading Python source text

A tokeniser and a recursive-descent parser for the part of Python in `Py/Syntax`, and the command `py_source`, which defines the syntax tree of the text between the quotes. Annotations, docstrings, comments and
imports are skipped. An assignment expression in the test of an `if` becomes an assignment in front of the `if`. Text outside of the subset is an error at build time.
-/

namespace Ellalgo.Py.Parser

/-- Tokens. -/
inductive Tok
  | name (s : String)
  | int (n : ℕ)
  | dec (m e : ℕ) (big : Bool)
  | imag (m e : ℕ) (big : Bool)
  | str (s : String)
  | op (s : String)
  | newline
  | indent
  | dedent
  deriving DecidableEq, Repr

/-! ### Tokeniser -/

def isNameStart (c : Char) : Bool := c.isAlpha || c == '_'
def isNameChar (c : Char) : Bool := c.isAlphanum || c == '_'
def digit (c : Char) : ℕ := c.toNat - '0'.toNat

def takeWhile (p : Char → Bool) : List Char → List Char × List Char
  | [] => ([], [])
  | c :: cs => if p c then let (a, b) := takeWhile p cs; (c :: a, b) else ([], c :: cs)

def numOf (cs : List Char) : ℕ := cs.foldl (fun n c => 10 * n + digit c) 0

/-- A number literal without `j`. -/
def lexReal (cs : List Char) : Tok × List Char :=
  let (ip, cs) := takeWhile Char.isDigit cs
  let (fp, cs, pt) := match cs with
    | '.' :: cs => let (f, cs) := takeWhile Char.isDigit cs; (f, cs, true)
    | _ => ([], cs, false)
  let (ex, neg, cs, hasE) : List Char × Bool × List Char × Bool := match cs with
    | 'e' :: '-' :: cs => let (x, cs) := takeWhile Char.isDigit cs; (x, true, cs, true)
    | 'e' :: '+' :: cs => let (x, cs) := takeWhile Char.isDigit cs; (x, false, cs, true)
    | 'e' :: cs => let (x, cs) := takeWhile Char.isDigit cs; (x, false, cs, true)
    | _ => ([], false, cs, false)
  if pt || hasE then
    let e := numOf ex
    let m := numOf (ip ++ fp)
    if neg then (.dec m (e + fp.length) false, cs)
    else if fp.length ≤ e then (.dec m (e - fp.length) true, cs) else (.dec m (fp.length - e) false, cs)
  else (.int (numOf ip), cs)

/-- A number literal. -/
def lexNum (cs : List Char) : Tok × List Char :=
  match lexReal cs with
  | (.int n, 'j' :: cs) => (.imag n 0 false, cs)
  | (.dec m e b, 'j' :: cs) => (.imag m e b, cs)
  | r => r

/-- The rest of a string after its opening quote. -/
def lexStr (q : Char) : ℕ → List Char → List Char × List Char
  | 0, cs => ([], cs)
  | _, [] => ([], [])
  | k + 1, '\\' :: c :: cs => let (a, b) := lexStr q k cs; ('\\' :: c :: a, b)
  | k + 1, c :: cs => if c == q then ([], cs) else let (a, b) := lexStr q k cs; (c :: a, b)

/-- The rest of a string after its three opening quotes. -/
def lexStr3 (q : Char) : ℕ → List Char → List Char × List Char
  | 0, cs => ([], cs)
  | _, [] => ([], [])
  | k + 1, '\\' :: c :: cs => let (a, b) := lexStr3 q k cs; ('\\' :: c :: a, b)
  | k + 1, c :: cs =>
    match cs with
    | c1 :: c2 :: cs' => if c == q && c1 == q && c2 == q then ([], cs') else let (a, b) := lexStr3 q k cs; (c :: a, b)
    | _ => let (a, b) := lexStr3 q k cs; (c :: a, b)

def ops3 : List String := ["**=", "//=", "..."]
def ops2 : List String := ["**", "//", "<=", ">=", "==", "!=", "->", "+=", "-=", "*=", "/=", "@=", ":="]
def ops1 : List Char := ['+', '-', '*', '/', '@', '<', '>', '=', '(', ')', '[', ']', '{', '}', ',', ':', '.', ';', '|']

/-- Drop to the end of the line. -/
def skipComment : List Char → List Char
  | [] => []
  | '\n' :: cs => '\n' :: cs
  | _ :: cs => skipComment cs

/-- Count the blanks at the start of a line. -/
def countBlanks : ℕ → List Char → ℕ × List Char
  | n, ' ' :: cs => countBlanks (n + 1) cs
  | n, cs => (n, cs)

/-- Close the blocks that are deeper than `n`. -/
def popTo (n : ℕ) : List ℕ → List Tok × List ℕ
  | [] => ([], [])
  | k :: ks => if n < k then let (t, r) := popTo n ks; (.dedent :: t, r) else ([], k :: ks)

/-- The tokeniser: `depth` is the number of open brackets, `stack` the columns of the open blocks, `bol` says that a line begins here. -/
def lex : (fuel depth : ℕ) → (stack : List ℕ) → (bol : Bool) → List Char → Except String (List Tok)
  | 0, _, _, _, _ => .error "lex: fuel"
  | _, _, stack, bol, [] => .ok ((if bol then [] else [.newline]) ++ (popTo 0 stack).1)
  | k + 1, depth, stack, true, cs =>
    let (n, rest) := countBlanks 0 cs
    match rest with
    | '\n' :: r => lex k depth stack true r
    | '#' :: r => lex k depth stack true (match skipComment r with | '\n' :: r' => r' | r' => r')
    | [] => .ok (popTo 0 stack).1
    | _ =>
      match stack with
      | top :: _ =>
        if top < n then (Tok.indent :: ·) <$> lex k depth (n :: stack) false rest
        else let (t, st) := popTo n stack; (t ++ ·) <$> lex k depth st false rest
      | [] => .error "lex: stack"
  | k + 1, depth, stack, false, c :: cs =>
    if c == '\n' then (if depth == 0 then (Tok.newline :: ·) <$> lex k depth stack true cs else lex k depth stack false cs)
    else if c == ' ' then lex k depth stack false cs
    else if c == '#' then lex k depth stack false (skipComment cs)
    else
      match c, cs with
      | '"', '"' :: '"' :: r => let (s, r) := lexStr3 '"' (r.length + 1) r; (Tok.str (String.ofList s) :: ·) <$> lex k depth stack false r
      | 'r', '"' :: '"' :: '"' :: r => let (s, r) := lexStr3 '"' (r.length + 1) r; (Tok.str (String.ofList s) :: ·) <$> lex k depth stack false r
      | '"', r => let (s, r) := lexStr '"' (r.length + 1) r; (Tok.str (String.ofList s) :: ·) <$> lex k depth stack false r
      | '\'', r => let (s, r) := lexStr '\'' (r.length + 1) r; (Tok.str (String.ofList s) :: ·) <$> lex k depth stack false r
      | 'f', '"' :: r => let (s, r) := lexStr '"' (r.length + 1) r; (Tok.str (String.ofList s) :: ·) <$> lex k depth stack false r
      | _, _ =>
        if c.isDigit then let (t, r) := lexNum (c :: cs); (t :: ·) <$> lex k depth stack false r
        else if isNameStart c then let (s, r) := takeWhile isNameChar (c :: cs); (Tok.name (String.ofList s) :: ·) <$> lex k depth stack false r
        else
          let d := if c == '(' || c == '[' || c == '{' then depth + 1 else if c == ')' || c == ']' || c == '}' then depth - 1 else depth
          match cs with
          | c1 :: c2 :: r => if ops3.contains (String.ofList [c, c1, c2]) then (Tok.op (String.ofList [c, c1, c2]) :: ·) <$> lex k depth stack false r
            else if ops2.contains (String.ofList [c, c1]) then (Tok.op (String.ofList [c, c1]) :: ·) <$> lex k depth stack false (c2 :: r)
            else if ops1.contains c then (Tok.op (String.ofList [c]) :: ·) <$> lex k d stack false cs
            else .error s!"lex: {c}"
          | _ => if ops1.contains c then (Tok.op (String.ofList [c]) :: ·) <$> lex k d stack false cs else .error s!"lex: {c}"

/-! ### Parser -/

/-- The parser state: the remaining tokens, and the assignment expressions met in the current statement. -/
structure PState where
  toks : List Tok
  hoisted : List PStmt

abbrev P := StateT PState (Except String)

def peek : P (Option Tok) := do return (← get).toks.head?
def next : P Tok := do
  match (← get).toks with
  | [] => throw "unexpected end"
  | t :: ts => modify fun s => { s with toks := ts }; return t
def isOp (o : String) : P Bool := do return (← peek) == some (.op o)
def isKw (o : String) : P Bool := do return (← peek) == some (.name o)
def expect (t : Tok) : P Unit := do
  let t' ← next
  if t' == t then return () else
    let rest := ((← get).toks.take 5).map reprStr
    throw s!"expected {reprStr t}, found {reprStr t'} before {rest}"
def acceptOp (o : String) : P Bool := do
  if ← isOp o then let _ ← next; return true else return false
def acceptKw (o : String) : P Bool := do
  if ← isKw o then let _ ← next; return true else return false
def ident : P String := do
  match ← next with
  | .name s => return s
  | t => throw s!"name expected, found {reprStr t}"

def keywords : List String := ["if", "else", "elif", "for", "in", "and", "or", "not", "is", "lambda", "return", "def", "class", "None", "True", "False", "assert", "raise", "break", "continue", "pass", "while", "import", "from", "try", "except", "as"]

/-- Names separated by commas, up to a token that is not a comma. -/
def identList : ℕ → P (List String)
  | 0 => throw "fuel"
  | k + 1 => do
    let x ← ident
    if ← acceptOp "," then return x :: (← identList k) else return [x]

/-- A call. Keyword arguments are in the subset for functions of NumPy only: `np.f(a, k=b)` is the call of `np."f k="` with the arguments `a` and `b`. Another call with keyword arguments becomes a call of
a function of NumPy that does not exist. -/
def mkCall (f : PExpr) (args : List PExpr) (kws : String) : P PExpr :=
  if kws == "" then return .call f args else
    match f with
    | .attr (.name "np") g => return .call (.attr (.name "np") (g ++ kws)) args
    | _ => return .call (.attr (.name "np") ("?" ++ kws)) args

mutual

/-- `test`: lambda, conditional expression, `or`-test. -/
def pTest : ℕ → P PExpr
  | 0 => throw "fuel"
  | k + 1 => do
    if ← acceptKw "lambda" then
      let xs ← identList k
      expect (.op ":")
      return .lam xs (← pTest k)
    let t ← pOr k
    if ← acceptKw "if" then
      let c ← pOr k
      expect (.name "else")
      return .ite c t (← pTest k)
    return t

def pOr : ℕ → P PExpr
  | 0 => throw "fuel"
  | k + 1 => do pOrRest k (← pAnd k)

def pOrRest : ℕ → PExpr → P PExpr
  | 0, _ => throw "fuel"
  | k + 1, l => do if ← acceptKw "or" then pOrRest k (.or l (← pAnd k)) else return l

def pAnd : ℕ → P PExpr
  | 0 => throw "fuel"
  | k + 1 => do pAndRest k (← pNot k)

def pAndRest : ℕ → PExpr → P PExpr
  | 0, _ => throw "fuel"
  | k + 1, l => do if ← acceptKw "and" then pAndRest k (.and l (← pNot k)) else return l

def pNot : ℕ → P PExpr
  | 0 => throw "fuel"
  | k + 1 => do if ← acceptKw "not" then return .not (← pNot k) else pCmp k

/-- One comparison; chains are not in the subset. -/
def pCmp : ℕ → P PExpr
  | 0 => throw "fuel"
  | k + 1 => do
    let l ← pSum k
    let some op ← pCmpOp | return l
    let r ← pSum k
    if (← pCmpOp).isSome then throw "chained comparison"
    return .cmp op l r

def pCmpOp : P (Option CmpOp) := do
  match ← peek with
  | some (.op "<") => let _ ← next; return some .lt
  | some (.op "<=") => let _ ← next; return some .le
  | some (.op ">") => let _ ← next; return some .gt
  | some (.op ">=") => let _ ← next; return some .ge
  | some (.op "==") => let _ ← next; return some .eq
  | some (.op "!=") => let _ ← next; return some .ne
  | some (.name "is") => let _ ← next; if ← acceptKw "not" then return some .isNot else return some .is
  | _ => return none

def pSum : ℕ → P PExpr
  | 0 => throw "fuel"
  | k + 1 => do pSumRest k (← pProd k)

def pSumRest : ℕ → PExpr → P PExpr
  | 0, _ => throw "fuel"
  | k + 1, l => do
    if ← acceptOp "+" then pSumRest k (.bin .add l (← pProd k))
    else if ← acceptOp "-" then pSumRest k (.bin .sub l (← pProd k))
    else return l

def pProd : ℕ → P PExpr
  | 0 => throw "fuel"
  | k + 1 => do pProdRest k (← pUnary k)

def pProdRest : ℕ → PExpr → P PExpr
  | 0, _ => throw "fuel"
  | k + 1, l => do
    if ← acceptOp "*" then pProdRest k (.bin .mul l (← pUnary k))
    else if ← acceptOp "/" then pProdRest k (.bin .div l (← pUnary k))
    else if ← acceptOp "@" then pProdRest k (.bin .matmul l (← pUnary k))
    else return l

def pUnary : ℕ → P PExpr
  | 0 => throw "fuel"
  | k + 1 => do
    if ← acceptOp "-" then return .neg (← pUnary k)
    else if ← acceptOp "+" then pUnary k
    else pPower k

def pPower : ℕ → P PExpr
  | 0 => throw "fuel"
  | k + 1 => do
    let b ← pPostfix k (← pAtom k)
    if ← acceptOp "**" then return .bin .pow b (← pUnary k) else return b

def pPostfix : ℕ → PExpr → P PExpr
  | 0, _ => throw "fuel"
  | k + 1, e => do
    if ← acceptOp "." then pPostfix k (.attr e (← ident))
    else if ← acceptOp "(" then
      let (args, kws) ← pArgs k
      pPostfix k (← mkCall e args kws)
    else if ← acceptOp "[" then pPostfix k (.index e (← pIndices k))
    else return e

/-- Arguments of a call, after the opening bracket; the string lists the keywords. -/
def pArgs : ℕ → P (List PExpr × String)
  | 0 => throw "fuel"
  | k + 1 => do
    if ← acceptOp ")" then return ([], "")
    let e ← pTest k
    if ← isKw "for" then
      let c ← pFor k e
      expect (.op ")")
      return ([c], "")
    let (e, w) ← if ← acceptOp "=" then
        match e with
        | .name x => pure (← pTest k, s!" {x}=")
        | _ => throw "keyword argument"
      else pure (e, "")
    if ← acceptOp "," then
      let (es, ws) ← pArgs k
      if w != "" && !es.isEmpty && ws == "" then throw "positional argument after a keyword"
      return (e :: es, w ++ ws)
    expect (.op ")")
    return ([e], w)

/-- `for xs in it` after the element. -/
def pFor : ℕ → PExpr → P PExpr
  | 0, _ => throw "fuel"
  | k + 1, e => do
    expect (.name "for")
    let xs ← identList k
    expect (.name "in")
    return .comp e xs (← pOr k)

def pIndices : ℕ → P (List PExpr)
  | 0 => throw "fuel"
  | k + 1 => do
    let e ← pIndex k
    if ← acceptOp "," then return e :: (← pIndices k)
    expect (.op "]")
    return [e]

/-- `lo:hi:step` is the call `slice(lo, hi, step)`. -/
def pIndex : ℕ → P PExpr
  | 0 => throw "fuel"
  | k + 1 => do
    let lo ← if ← isOp ":" then pure PExpr.none else pTest k
    if ← acceptOp ":" then
      let hi ← if (← isOp ",") || (← isOp "]") || (← isOp ":") then pure PExpr.none else pTest k
      if ← acceptOp ":" then
        let st ← if (← isOp ",") || (← isOp "]") then pure PExpr.none else pTest k
        return .call (.name "slice") [lo, hi, st]
      return .slice lo hi
    return lo

/-- Elements up to the closing bracket; says whether there was a comma. -/
def pElems : ℕ → String → P (List PExpr × Bool)
  | 0, _ => throw "fuel"
  | k + 1, close => do
    if ← acceptOp close then return ([], false)
    let e ← pElem k
    if ← acceptOp "," then return (e :: (← pElems k close).1, true)
    expect (.op close)
    return ([e], false)

/-- An element: a test, an assignment expression, or a comprehension. -/
def pElem : ℕ → P PExpr
  | 0 => throw "fuel"
  | k + 1 => do
    let e ← pTest k
    if ← acceptOp ":=" then
      let v ← pTest k
      modify fun s => { s with hoisted := s.hoisted ++ [.assign e v] }
      return e
    if ← isKw "for" then pFor k e else return e

def pAtom : ℕ → P PExpr
  | 0 => throw "fuel"
  | k + 1 => do
    match ← next with
    | .name "None" => return .none
    | .name "True" => return .bool true
    | .name "False" => return .bool false
    | .name s => if keywords.contains s then throw s!"unexpected {s}" else return .name s
    | .int n => return .int n
    | .dec m e b => return .dec m e b
    | .imag m e b => return .imag m e b
    | .str s => pStrRest k s
    | .op "(" =>
      match ← pElems k ")" with
      | ([e], false) => return e
      | (es, _) => return .tuple es
    | .op "[" =>
      match ← pElems k "]" with
      | ([.comp e xs it], false) => return .comp e xs it
      | (es, _) => return .list es
    | t => throw s!"unexpected {reprStr t}"

/-- Adjacent string literals. -/
def pStrRest : ℕ → String → P PExpr
  | 0, _ => throw "fuel"
  | k + 1, s => do
    match ← peek with
    | some (.str t) => let _ ← next; pStrRest k (s ++ t)
    | _ => return .str s

/-- Tests separated by commas: a tuple without brackets. -/
def pTests : ℕ → P PExpr
  | 0 => throw "fuel"
  | k + 1 => do
    let e ← pTest k
    if ← isOp "," then return .tuple (e :: (← pTestsRest k)) else return e

def pTestsRest : ℕ → P (List PExpr)
  | 0 => throw "fuel"
  | k + 1 => do
    if ← acceptOp "," then
      let e ← pTest k
      return e :: (← pTestsRest k)
    else return []

end

/-- Skip to the end of the line. -/
def skipLine : ℕ → P Unit
  | 0 => throw "fuel"
  | k + 1 => do
    match ← next with
    | .newline => return ()
    | _ => skipLine k

/-- Skip an annotation: up to a token at depth 0 that is `=`, `,`, `)`, `:` or the end of the line. -/
def skipAnn : ℕ → ℕ → P Unit
  | 0, _ => throw "fuel"
  | k + 1, d => do
    match ← peek with
    | some .newline => return ()
    | some (.op o) =>
      if d == 0 && (o == "=" || o == "," || o == ")" || o == ":") then return ()
      else
        let _ ← next
        skipAnn k (if o == "(" || o == "[" then d + 1 else if o == ")" || o == "]" then d - 1 else d)
    | some _ => let _ ← next; skipAnn k d
    | none => throw "annotation"

/-- Parameters up to the closing bracket: names and defaults. -/
def pParams : ℕ → P (List String × List PExpr)
  | 0 => throw "fuel"
  | k + 1 => do
    if ← acceptOp ")" then return ([], [])
    let x ← ident
    if ← acceptOp ":" then skipAnn k 0
    let d ← if ← acceptOp "=" then pure [← pTest k] else pure []
    let _ ← acceptOp ","
    let (xs, ds) ← pParams k
    return (x :: xs, d ++ ds)

def augOps : List (String × BinOp) := [("+=", .add), ("-=", .sub), ("*=", .mul), ("/=", .div)]

/-- Names with dots. -/
def dotted : ℕ → P String
  | 0 => throw "fuel"
  | k + 1 => do
    let x ← ident
    if ← acceptOp "." then return x ++ "." ++ (← dotted k) else return x

/-- Dotted names separated by commas, up to the closing bracket. -/
def dottedList : ℕ → P (List String)
  | 0 => throw "fuel"
  | k + 1 => do
    let x ← dotted k
    if ← acceptOp "," then return x :: (← dottedList k)
    expect (.op ")")
    return [x]

/-- Take the assignment expressions that were met. -/
def takeHoisted : P (List PStmt) := do
  let h := (← get).hoisted
  modify fun s => { s with hoisted := [] }
  return h

def skipLineFast : P Unit := do skipLine ((← get).toks.length + 1)

mutual

/-- A simple statement with its end of line; nothing for statements without effect. -/
def pSimple : ℕ → P (List PStmt)
  | 0 => throw "fuel"
  | k + 1 => do
    let r ← pSimpleBody k
    expect .newline
    unless (← takeHoisted).isEmpty do throw "assignment expression outside of if"
    return r

def pSimpleBody : ℕ → P (List PStmt)
  | 0 => throw "fuel"
  | k + 1 => do
    match ← peek with
    | some (.name "return") =>
      let _ ← next
      if (← peek) == some .newline then return [.ret .none] else return [.ret (← pTests k)]
    | some (.name "assert") =>
      let _ ← next
      let e ← pTest k
      if ← acceptOp "," then let _ ← pTest k
      return [.assert e]
    | some (.name "raise") => let _ ← next; return [.raise (← pTest k)]
    | some (.name "break") => let _ ← next; return [.brk]
    | some (.name "continue") => let _ ← next; return [.cont]
    | some (.name "pass") => let _ ← next; return [.pass]
    | some (.op "...") => let _ ← next; return [.pass]
    | _ =>
      let e ← pTests k
      if ← acceptOp ":" then
        skipAnn k 0
        if ← acceptOp "=" then return [.assign e (← pTests k)] else return []
      if ← acceptOp "=" then
        let v ← pTests k
        if ← isOp "=" then throw "chained assignment"
        return [.assign e v]
      match ← peek with
      | some (.op o) =>
        match augOps.lookup o with
        | some op => let _ ← next; return [.aug op e (← pTests k)]
        | none => throw s!"statement: {o}"
      | _ =>
        match e with
        | .str _ => return []
        | e => return [.expr e]

/-- One statement. -/
def pStmt : ℕ → P (List PStmt)
  | 0 => throw "fuel"
  | k + 1 => do
    match ← peek with
    | some (.name "import") => skipLineFast; return []
    | some (.name "from") => skipLineFast; return []
    | some (.name "if") => let _ ← next; pIf k
    | some (.name "for") =>
      let _ ← next
      let xs ← identList k
      let t := match xs with
        | [x] => PExpr.name x
        | xs => .tuple (xs.map .name)
      expect (.name "in")
      let it ← pTests k
      return [.for_ t it (← pBlock k)]
    | some (.name "def") =>
      let f ← pDef k
      unless f.defaults.isEmpty do throw "defaults in a nested function"
      return [.fn f.name f.params f.body]
    | some (.name "try") =>
      let _ ← next
      let b ← pBlock k
      return [.try_ b (← pHandlers k)]
    | _ => pSimple k

/-- The handlers of a `try`. -/
def pHandlers : ℕ → P (List PStmt)
  | 0 => throw "fuel"
  | k + 1 => do
    if ← acceptKw "except" then
      let ns ← if ← acceptOp "(" then dottedList k else pure [← dotted k]
      if ← acceptKw "as" then let _ ← ident
      let b ← pBlock k
      return .except ns b :: (← pHandlers k)
    if (← isKw "else") || (← isKw "finally") then throw "try"
    return []

/-- After `if` or `elif`. -/
def pIf : ℕ → P (List PStmt)
  | 0 => throw "fuel"
  | k + 1 => do
    let c ← pElem k
    let h ← takeHoisted
    let t ← pBlock k
    if ← acceptKw "elif" then return h ++ [.ite c t (← pIf k)]
    if ← acceptKw "else" then return h ++ [.ite c t (← pBlock k)]
    return h ++ [.ite c t []]

/-- `:` and an indented block, or a simple statement on the same line. -/
def pBlock : ℕ → P (List PStmt)
  | 0 => throw "fuel"
  | k + 1 => do
    expect (.op ":")
    if (← peek) == some .newline then
      expect .newline
      expect .indent
      pStmts k
    else pSimple k

/-- Statements up to the end of the block. -/
def pStmts : ℕ → P (List PStmt)
  | 0 => throw "fuel"
  | k + 1 => do
    if (← peek) == some .dedent then
      expect .dedent
      return []
    let s ← pStmt k
    return s ++ (← pStmts k)

def pDef : ℕ → P PFun
  | 0 => throw "fuel"
  | k + 1 => do
    expect (.name "def")
    let name ← ident
    expect (.op "(")
    let (params, defaults) ← pParams k
    if ← acceptOp "->" then skipAnn k 0
    return { name, params, defaults, isProperty := false, body := ← pBlock k }

end

/-- The members of a class up to the end of its block. -/
def pMembers : ℕ → P (List (String × PExpr) × List PFun)
  | 0 => throw "fuel"
  | k + 1 => do
    match ← peek with
    | some .dedent => expect .dedent; return ([], [])
    | some (.op "@") =>
      let _ ← next
      let d ← ident
      skipLineFast
      let f ← pDef (k + 1)
      let (as, fs) ← pMembers k
      return (as, { f with isProperty := d == "property" } :: fs)
    | some (.name "def") =>
      let f ← pDef (k + 1)
      let (as, fs) ← pMembers k
      return (as, f :: fs)
    | _ =>
      let st ← pSimple (k + 1)
      let (as, fs) ← pMembers k
      match st with
      | [.assign (.name x) e] => return ((x, e) :: as, fs)
      | [] => return (as, fs)
      | [.pass] => return (as, fs)
      | _ => throw "class body"

/-- Top-level statements: functions and classes are kept, the other statements are skipped. -/
def pTop : ℕ → P PModule
  | 0 => throw "fuel"
  | k + 1 => do
    match ← peek with
    | none => return { funs := [], classes := [] }
    | some .newline => let _ ← next; pTop k
    | some .dedent => let _ ← next; pTop k
    | some (.name "def") =>
      let f ← pDef (k + 1)
      let m ← pTop k
      return { m with funs := f :: m.funs }
    | some (.name "class") =>
      let _ ← next
      let name ← ident
      skipAnn k 0
      expect (.op ":")
      expect .newline
      expect .indent
      let (attrs, methods) ← pMembers (k + 1)
      let m ← pTop k
      return { m with classes := { name, attrs, methods } :: m.classes }
    | some _ => skipLineFast; pTop k

/-- The syntax tree of a module. -/
def parse (s : String) : Except String PModule := do
  let cs := s.toList
  let toks ← lex (2 * cs.length + 10) 0 [0] true cs
  let (m, _) ← (pTop (toks.length + 100)).run { toks, hoisted := [] }
  return m

/-! ### Syntax trees as terms -/

open Lean Elab Command

def qList (ty : Lean.Expr) (xs : List Lean.Expr) : Lean.Expr :=
  xs.foldr (fun x l => mkApp3 (.const ``List.cons [.zero]) ty x l) (.app (.const ``List.nil [.zero]) ty)

def qBool (b : Bool) : Lean.Expr := .const (if b then ``Bool.true else ``Bool.false) []

def qBinOp : BinOp → Lean.Expr
  | .add => .const ``BinOp.add [] | .sub => .const ``BinOp.sub [] | .mul => .const ``BinOp.mul []
  | .div => .const ``BinOp.div [] | .pow => .const ``BinOp.pow [] | .matmul => .const ``BinOp.matmul []

def qCmpOp : CmpOp → Lean.Expr
  | .lt => .const ``CmpOp.lt [] | .le => .const ``CmpOp.le [] | .gt => .const ``CmpOp.gt [] | .ge => .const ``CmpOp.ge []
  | .eq => .const ``CmpOp.eq [] | .ne => .const ``CmpOp.ne [] | .is => .const ``CmpOp.is [] | .isNot => .const ``CmpOp.isNot []

def tE : Lean.Expr := .const ``PExpr []
def tS : Lean.Expr := .const ``PStmt []
def tStr : Lean.Expr := .const ``String []
def qStrs (xs : List String) : Lean.Expr := qList tStr (xs.map mkStrLit)

mutual

def qE : PExpr → Lean.Expr
  | .none => .const ``PExpr.none []
  | .bool b => .app (.const ``PExpr.bool []) (qBool b)
  | .int n => .app (.const ``PExpr.int []) (mkNatLit n)
  | .dec m e b => mkApp3 (.const ``PExpr.dec []) (mkNatLit m) (mkNatLit e) (qBool b)
  | .imag m e b => mkApp3 (.const ``PExpr.imag []) (mkNatLit m) (mkNatLit e) (qBool b)
  | .str s => .app (.const ``PExpr.str []) (mkStrLit s)
  | .name s => .app (.const ``PExpr.name []) (mkStrLit s)
  | .attr e a => mkApp2 (.const ``PExpr.attr []) (qE e) (mkStrLit a)
  | .bin op l r => mkApp3 (.const ``PExpr.bin []) (qBinOp op) (qE l) (qE r)
  | .neg e => .app (.const ``PExpr.neg []) (qE e)
  | .not e => .app (.const ``PExpr.not []) (qE e)
  | .cmp op l r => mkApp3 (.const ``PExpr.cmp []) (qCmpOp op) (qE l) (qE r)
  | .and l r => mkApp2 (.const ``PExpr.and []) (qE l) (qE r)
  | .or l r => mkApp2 (.const ``PExpr.or []) (qE l) (qE r)
  | .ite c t e => mkApp3 (.const ``PExpr.ite []) (qE c) (qE t) (qE e)
  | .tuple es => .app (.const ``PExpr.tuple []) (qList tE (qEs es))
  | .list es => .app (.const ``PExpr.list []) (qList tE (qEs es))
  | .call f as => mkApp2 (.const ``PExpr.call []) (qE f) (qList tE (qEs as))
  | .index e is => mkApp2 (.const ``PExpr.index []) (qE e) (qList tE (qEs is))
  | .slice lo hi => mkApp2 (.const ``PExpr.slice []) (qE lo) (qE hi)
  | .lam xs e => mkApp2 (.const ``PExpr.lam []) (qStrs xs) (qE e)
  | .comp e xs it => mkApp3 (.const ``PExpr.comp []) (qE e) (qStrs xs) (qE it)

def qEs : List PExpr → List Lean.Expr
  | [] => []
  | e :: es => qE e :: qEs es

end

mutual

def qS : PStmt → Lean.Expr
  | .assign t e => mkApp2 (.const ``PStmt.assign []) (qE t) (qE e)
  | .aug op t e => mkApp3 (.const ``PStmt.aug []) (qBinOp op) (qE t) (qE e)
  | .expr e => .app (.const ``PStmt.expr []) (qE e)
  | .ite c t e => mkApp3 (.const ``PStmt.ite []) (qE c) (qList tS (qSs t)) (qList tS (qSs e))
  | .for_ t it b => mkApp3 (.const ``PStmt.for_ []) (qE t) (qE it) (qList tS (qSs b))
  | .ret e => .app (.const ``PStmt.ret []) (qE e)
  | .assert e => .app (.const ``PStmt.assert []) (qE e)
  | .raise e => .app (.const ``PStmt.raise []) (qE e)
  | .brk => .const ``PStmt.brk []
  | .cont => .const ``PStmt.cont []
  | .pass => .const ``PStmt.pass []
  | .fn x xs b => mkApp3 (.const ``PStmt.fn []) (mkStrLit x) (qStrs xs) (qList tS (qSs b))
  | .try_ b hs => mkApp2 (.const ``PStmt.try_ []) (qList tS (qSs b)) (qList tS (qSs hs))
  | .except ns b => mkApp2 (.const ``PStmt.except []) (qStrs ns) (qList tS (qSs b))

def qSs : List PStmt → List Lean.Expr
  | [] => []
  | s :: ss => qS s :: qSs ss

end

def qFun (f : PFun) : Lean.Expr :=
  mkApp5 (.const ``PFun.mk []) (mkStrLit f.name) (qStrs f.params) (qList tE (qEs f.defaults)) (qBool f.isProperty) (qList tS (qSs f.body))

def tAttr : Lean.Expr := mkApp2 (.const ``Prod [.zero, .zero]) tStr tE

def declare (n : Name) (type value : Lean.Expr) : CommandElabM Unit := do
  liftCoreM <| addAndCompile <| .defnDecl
    { name := n, levelParams := [], type, value, hints := .abbrev, safety := .safe }

/-- `py_source M "text"` defines the syntax tree `M` of a Python module, with `M.f` for each function, `M.C` for each class and `M.C.f` for each method. -/
elab "py_source " id:ident s:str : command => do
  match parse s.getString with
  | .error e => throwError "py_source: {e}"
  | .ok m =>
    let root := (← getCurrNamespace) ++ id.getId
    let mut funs := []
    for f in m.funs do
      let n := root ++ Name.mkSimple f.name
      declare n (.const ``PFun []) (qFun f)
      funs := funs ++ [Lean.Expr.const n []]
    let mut classes := []
    for c in m.classes do
      let cn := root ++ Name.mkSimple c.name
      let mut ms := []
      for f in c.methods do
        let n := cn ++ Name.mkSimple f.name
        declare n (.const ``PFun []) (qFun f)
        ms := ms ++ [Lean.Expr.const n []]
      declare cn (.const ``PClass []) <| mkApp3 (.const ``PClass.mk []) (mkStrLit c.name)
        (qList tAttr (c.attrs.map fun a => mkApp4 (.const ``Prod.mk [.zero, .zero]) tStr tE (mkStrLit a.1) (qE a.2)))
        (qList (.const ``PFun []) ms)
      classes := classes ++ [Lean.Expr.const cn []]
    declare root (.const ``PModule []) (mkApp2 (.const ``PModule.mk []) (qList (.const ``PFun []) funs) (qList (.const ``PClass []) classes))

end Ellalgo.Py.Parser
