import Verif.Model.CuttingPlane

/-!
# Specification vocabulary for the control loops

Traces: which calls were made, in which order, with which answers. They are defined by single steps and do not mention the
recursive functions of the model.
-/

namespace Ellalgo

variable {O S X C G T D : Type*}

/-- A run of completed iterations of `cutting_plane_feas`: `FeasTrace o s l o' s'` says that, starting from oracle state `o` and
space `s`, the oracle was asked `l.length` times, the i-th time at the point `l[i].1` (the space's centre at that time), each time
answered the cut `l[i].2`, that every update returned `Success` and left `tsq` not below the tolerance, and that the states are now
`o'` and `s'`. -/
inductive FeasTrace (omega : OracleFeas O X C) (sp : SearchSpace S X C T) (lt : T → T → Bool) (tol : T)
    (o : O) (s : S) : List (X × C) → O → S → Prop
  | start : FeasTrace omega sp lt tol o s [] o s
  | step {l o1 s1 o2 s2 cut} : FeasTrace omega sp lt tol o s l o1 s1 →
      omega o1 (sp.xc s1) = (o2, .ok (some cut)) → sp.updateBiasCut s1 cut = (s2, .ok .success) →
      lt (sp.tsq s2) tol = false → FeasTrace omega sp lt tol o s (l ++ [(sp.xc s1, cut)]) o2 s2

/-- One consultation of an optimisation oracle: the point, the `gamma` passed, the answer. -/
structure OptimEvent (X C G : Type*) where
  x : X
  gamma : G
  cut : C
  gamma1 : Option G

/-- The last reported value and the point it was reported at; `(none, g0)` if nothing was reported. -/
def bestOf (g0 : G) (l : List (OptimEvent X C G)) : Option X × G :=
  match (l.filter fun e => e.gamma1.isSome).getLast? with
  | none => (none, g0)
  | some e => (some e.x, e.gamma1.getD g0)

/-- The update that follows an answer of an optimisation oracle. -/
def SearchSpace.updateFor (sp : SearchSpace S X C T) (s : S) (e : OptimEvent X C G) : S × Except Fault CutStatus :=
  if e.gamma1.isSome then sp.updateCentralCut s e.cut else sp.updateBiasCut s e.cut

/-- A run of completed iterations of `cutting_plane_optim`. Every event records the value of `gamma` that was passed, which has to
be the last one reported before (or the initial one). -/
inductive OptimTrace (omega : OracleOptim O X C G) (sp : SearchSpace S X C T) (lt : T → T → Bool) (tol : T)
    (o : O) (s : S) (g0 : G) : List (OptimEvent X C G) → O → S → Prop
  | start : OptimTrace omega sp lt tol o s g0 [] o s
  | step {l o1 s1 o2 s2} {e : OptimEvent X C G} : OptimTrace omega sp lt tol o s g0 l o1 s1 →
      e.x = sp.xc s1 → e.gamma = (bestOf g0 l).2 →
      omega o1 e.x e.gamma = (o2, .ok (e.cut, e.gamma1)) → sp.updateFor s1 e = (s2, .ok .success) →
      lt (sp.tsq s2) tol = false → OptimTrace omega sp lt tol o s g0 (l ++ [e]) o2 s2

/-- One iteration of `cutting_plane_optim_q`: the point, `gamma` and `retry` passed, the answer, the status of the update. -/
structure QEvent (X C G : Type*) where
  x : X
  gamma : G
  retry : Bool
  ans : AnswerQ X C G
  status : CutStatus

/-- The last reported value and the `x_q` it came with. -/
def bestOfQ (g0 : G) (l : List (QEvent X C G)) : Option X × G :=
  match (l.filter fun e => e.ans.gamma1.isSome).getLast? with
  | none => (none, g0)
  | some e => (some e.ans.xq, e.ans.gamma1.getD g0)

/-- The retry protocol: `retry` is `False` at first and after every `Success`, `True` after `NoEffect`; an
unclassified status leaves it as it was. -/
def retryAfter (l : List (QEvent X C G)) : Bool :=
  match l.getLast? with
  | none => false
  | some e =>
    match e.status with
    | .success => false
    | .noEffect => true
    | _ => e.retry

/-- A run of completed iterations of `cutting_plane_optim_q`. -/
inductive QTrace (omega : OracleOptimQ O X C G) (sp : SearchSpace S X C T) (lt : T → T → Bool) (tol : T)
    (o : O) (s : S) (g0 : G) : List (QEvent X C G) → O → S → Prop
  | start : QTrace omega sp lt tol o s g0 [] o s
  | step {l o1 s1 o2 s2} {e : QEvent X C G} : QTrace omega sp lt tol o s g0 l o1 s1 →
      e.x = sp.xc s1 → e.gamma = (bestOfQ g0 l).2 → e.retry = retryAfter l →
      omega o1 e.x e.gamma e.retry = (o2, .ok e.ans) → sp.updateQ s1 e.ans.cut = (s2, .ok e.status) →
      e.status ≠ .noSoln → (e.status = .noEffect → e.ans.moreAlt = true) →
      lt (sp.tsq s2) tol = false → QTrace omega sp lt tol o s g0 (l ++ [e]) o2 s2

/-- A run of a binary search: the tested values with their answers, and the bracket they lead to. -/
inductive BSTrace (omega : OracleBS O G) (num : CuttingPlane.BSNum G D) (o : O) (lo up : G) :
    List (G × Bool) → O → G → G → Prop
  | start : BSTrace omega num o lo up [] o lo up
  | step {l o1 o2 lo1 up1 b} : BSTrace omega num o lo up l o1 lo1 up1 →
      num.small (num.tau lo1 up1) = false →
      omega o1 (num.mid lo1 (num.tau lo1 up1)) = (o2, .ok b) →
      BSTrace omega num o lo up (l ++ [(num.mid lo1 (num.tau lo1 up1), b)]) o2
        (if b then lo1 else num.mid lo1 (num.tau lo1 up1)) (if b then num.mid lo1 (num.tau lo1 up1) else up1)

end Ellalgo
