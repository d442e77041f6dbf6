import Verif.Model.EllSpace
import Verif.Spec.History

/-!
# Array identity: `Ell` on an explicit heap

`Ell.__init__` stores the caller's array (`ell.py:75`, `self._xc = x_center`), `_update_core` modifies it in place (`ell.py:256`,
`self._xc -= ...` on a NumPy array), `xc()` returns the very array (`ell.py:95`), and `cutting_plane_optim` takes a copy with
`copy.copy` (`cutting_plane.py:191`). Addresses are natural numbers. The matrix `_mq` is created inside the constructor
and never handed out, so it stays a value. Oracles are assumed to read the array they are given and not to write to it.
Only float arrays are modelled (in-place subtraction of floats from an integer array raises in NumPy).
-/

namespace Ellalgo

variable {n : ℕ} {O G : Type*}

/-- Arrays of length `n` by address; addresses below `next` are in use. -/
structure Heap (n : ℕ) where
  mem : ℕ → Vec n
  next : ℕ

namespace Heap

/-- A new array with contents `v` (`copy.copy`, `np.array`). -/
def alloc (h : Heap n) (v : Vec n) : ℕ × Heap n :=
  (h.next, { mem := Function.update h.mem h.next v, next := h.next + 1 })

/-- In-place assignment. -/
def write (h : Heap n) (a : ℕ) (v : Vec n) : Heap n := { h with mem := Function.update h.mem a v }

end Heap

/-- An `Ell` object whose centre is a reference. -/
structure EllObj (n : ℕ) where
  xcRef : ℕ
  mq : Mat n
  kappa : ℝ
  tsq : ℝ
  helper : EllCalc
  noDeferTrick : Bool

namespace EllObj

/-- What the object looks like when its reference is followed. -/
def view (h : Heap n) (e : EllObj n) : Ell n :=
  { mq := e.mq, xc := h.mem e.xcRef, kappa := e.kappa, tsq := e.tsq, helper := e.helper,
    noDeferTrick := e.noDeferTrick }

/-- The object fields (all but the centre) of an `Ell` value. -/
def ofEll (a : ℕ) (e : Ell n) : EllObj n :=
  { xcRef := a, mq := e.mq, kappa := e.kappa, tsq := e.tsq, helper := e.helper, noDeferTrick := e.noDeferTrick }

/-- `ell.py:49-86`: the constructor keeps the caller's reference. -/
noncomputable def init (h : Heap n) (val : InitVal n) (xRef : ℕ) : Except Fault (EllObj n) :=
  (Ell.init val (h.mem xRef)).map (ofEll xRef)

/-- The update methods (`ell.py:118-266`): line 256 writes the new centre into the array `_xc`. -/
noncomputable def update (h : Heap n) (e : EllObj n) (m : Method) (cut : Cut n) :
    Heap n × EllObj n × Except Fault CutStatus :=
  let r := (e.view h).update m cut
  (h.write e.xcRef r.1.xc, ofEll e.xcRef r.1, r.2)

/-- A history of update calls on the object. -/
noncomputable def run (h : Heap n) (e : EllObj n) : List (Method × Cut n) → Heap n × EllObj n
  | [] => (h, e)
  | (m, cut) :: l => let r := e.update h m cut; r.2.1.run r.1 l

end EllObj

/-- `cutting_plane.py:116-125` on the heap: returns the reference `space.xc()`. -/
noncomputable def hFeasLoop (omega : OracleFeas O (Vec n) (Cut n)) (lt : ℝ → ℝ → Bool) (tol : ℝ) :
    (fuel niter : ℕ) → Heap n → O → EllObj n → Heap n × O × EllObj n × Except Fault (Option ℕ × ℕ)
  | 0, niter, h, o, e => (h, o, e, .ok (none, niter))
  | fuel + 1, niter, h, o, e =>
    match omega o (h.mem e.xcRef) with
    | (o1, .error f) => (h, o1, e, .error f)
    | (o1, .ok none) => (h, o1, e, .ok (some e.xcRef, niter))
    | (o1, .ok (some cut)) =>
      match e.update h .bias cut with
      | (h1, e1, .error f) => (h1, o1, e1, .error f)
      | (h1, e1, .ok status) =>
        if status ≠ .success ∨ lt e1.tsq tol then (h1, o1, e1, .ok (none, niter))
        else hFeasLoop omega lt tol fuel (niter + 1) h1 o1 e1

/-- `cutting_plane.py:37-125` on the heap. -/
noncomputable def hFeas (omega : OracleFeas O (Vec n) (Cut n)) (lt : ℝ → ℝ → Bool) (h : Heap n) (o : O)
    (e : EllObj n) (options : Options ℝ) : Heap n × O × EllObj n × Except Fault (Option ℕ × ℕ) :=
  hFeasLoop omega lt options.tolerance options.maxIters 0 h o e

/-- `cutting_plane.py:186-197` on the heap; line 191 (`copy.copy`) allocates. -/
noncomputable def hOptimLoop (omega : OracleOptim O (Vec n) (Cut n) G) (lt : ℝ → ℝ → Bool) (tol : ℝ) :
    (fuel niter : ℕ) → Heap n → O → EllObj n → G → Option ℕ →
      Heap n × O × EllObj n × Except Fault (Option ℕ × G × ℕ)
  | 0, niter, h, o, e, gamma, xBest => (h, o, e, .ok (xBest, gamma, niter))
  | fuel + 1, niter, h, o, e, gamma, xBest =>
    match omega o (h.mem e.xcRef) gamma with
    | (o1, .error f) => (h, o1, e, .error f)
    | (o1, .ok (cut, some gamma1)) =>
      let (a, h0) := h.alloc (h.mem e.xcRef)
      match e.update h0 .central cut with
      | (h1, e1, .error f) => (h1, o1, e1, .error f)
      | (h1, e1, .ok status) =>
        if status ≠ .success ∨ lt e1.tsq tol then (h1, o1, e1, .ok (some a, gamma1, niter))
        else hOptimLoop omega lt tol fuel (niter + 1) h1 o1 e1 gamma1 (some a)
    | (o1, .ok (cut, none)) =>
      match e.update h .bias cut with
      | (h1, e1, .error f) => (h1, o1, e1, .error f)
      | (h1, e1, .ok status) =>
        if status ≠ .success ∨ lt e1.tsq tol then (h1, o1, e1, .ok (xBest, gamma, niter))
        else hOptimLoop omega lt tol fuel (niter + 1) h1 o1 e1 gamma xBest

/-- `cutting_plane.py:128-197` on the heap. -/
noncomputable def hOptim (omega : OracleOptim O (Vec n) (Cut n) G) (lt : ℝ → ℝ → Bool) (h : Heap n) (o : O)
    (e : EllObj n) (gamma : G) (options : Options ℝ) :
    Heap n × O × EllObj n × Except Fault (Option ℕ × G × ℕ) :=
  hOptimLoop omega lt options.tolerance options.maxIters 0 h o e gamma none

end Ellalgo
