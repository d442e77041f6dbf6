import Verif.Model.Basic

/-!
# Model of `experiment/power_iteration.py`

Simplifications: arrays are real and of matching shapes (`A` is `n × n`, `x` has `n` entries); `max_iters` is a natural number; dividing an array by zero, which
in NumPy gives nan entries and a warning, is the fault `zeroDivision`. The functions normalise the caller's array in place; what that array holds afterwards is the
field `arg` of the result. The module-level demonstration (147-171) is not modelled.
-/

namespace Ellalgo

open Matrix

variable {n : ℕ}

/-- `power_iteration.py:10-13`, `Options`. -/
structure PowerOptions where
  maxIters : ℕ
  tolerance : ℝ

/-- The returned triple `(x, ld, niter)` and the contents of the caller's array afterwards. -/
structure PowerResult (n : ℕ) where
  x : Vec n
  ld : ℝ
  niter : ℕ
  arg : Vec n

/-- `power_iteration.py:16-17`, `norm_l1`. -/
def normL1 (x : Vec n) : ℝ := ∑ i, |x i|

/-- `x /= c` for an array `x` and a number `c`. -/
noncomputable def arrDiv (x : Vec n) (c : ℝ) : Except Fault (Vec n) :=
  if c = 0 then .error .zeroDivision else .ok fun i => x i / c

/-- `x /= np.sqrt(np.sum(x**2))` (`power_iteration.py:37, 41, 70, 72, 93, 99, 132, 141, 143`). -/
noncomputable def arrUnit (x : Vec n) : Except Fault (Vec n) := arrDiv x (Real.sqrt (∑ i, x i ^ 2))

open Classical in
/-- `power_iteration.py:38-44`: the loop of `power_iteration` with `left` passes left, at pass number `niter`; `arg` is the caller's array. -/
noncomputable def powerLoop (A : Mat n) (o : PowerOptions) (arg : Vec n) : ℕ → ℕ → Vec n → Except Fault (PowerResult n)
  | 0, _, x => .ok ⟨x, x ⬝ᵥ (A *ᵥ x), o.maxIters, arg⟩                                   -- 44
  | left + 1, niter, x1 =>                                                              -- 38-39
    match arrUnit (A *ᵥ x1) with                                                        -- 40-41
    | .error f => .error f
    | .ok x =>
      if normL1 (x - x1) ≤ o.tolerance ∨ normL1 (x + x1) ≤ o.tolerance then             -- 42
        .ok ⟨x, x ⬝ᵥ (A *ᵥ x), niter, arg⟩                                               -- 43
      else powerLoop A o arg left (niter + 1) x

/-- `power_iteration.py:20-44`, `power_iteration`. Line 37 normalises the caller's array in place; line 40 binds `x` to a new array. -/
noncomputable def powerIteration (A : Mat n) (x : Vec n) (o : PowerOptions) : Except Fault (PowerResult n) :=
  match arrUnit x with                                                                  -- 37
  | .error f => .error f
  | .ok x => powerLoop A o x o.maxIters 0 x

open Classical in
/-- `power_iteration.py:65-73`: the loop of `power_iteration4`. `arg` is the caller's array; in pass 0 `x` still is that array, so that the final division (72) reaches it if there is no pass at all. -/
noncomputable def powerLoop4 (A : Mat n) (o : PowerOptions) (arg : Vec n) : ℕ → ℕ → Vec n → Except Fault (PowerResult n)
  | 0, niter, x =>
    match arrUnit x with                                                                -- 72
    | .error f => .error f
    | .ok x => .ok ⟨x, x ⬝ᵥ (A *ᵥ x), o.maxIters, if niter = 0 then x else arg⟩          -- 73
  | left + 1, niter, x1 =>                                                              -- 65-66
    match arrDiv (A *ᵥ x1) (normL1 (A *ᵥ x1)) with                                      -- 67-68
    | .error f => .error f
    | .ok x =>
      if normL1 (x - x1) ≤ o.tolerance ∨ normL1 (x + x1) ≤ o.tolerance then             -- 69
        match arrUnit x with                                                            -- 70
        | .error f => .error f
        | .ok x => .ok ⟨x, x ⬝ᵥ (A *ᵥ x), niter, arg⟩                                    -- 71
      else powerLoop4 A o arg left (niter + 1) x

/-- `power_iteration.py:47-73`, `power_iteration4`. -/
noncomputable def powerIteration4 (A : Mat n) (x : Vec n) (o : PowerOptions) : Except Fault (PowerResult n) :=
  match arrDiv x (normL1 x) with                                                        -- 64
  | .error f => .error f
  | .ok x => powerLoop4 A o x o.maxIters 0 x

open Classical in
/-- `power_iteration.py:96-104`: the loop of `power_iteration2`; `new` and `ld` are the variables of these names. The array `x` is the caller's throughout (98). -/
noncomputable def powerLoop2 (A : Mat n) (o : PowerOptions) : ℕ → ℕ → Vec n → Vec n → ℝ → Except Fault (PowerResult n)
  | 0, _, x, _, ld => .ok ⟨x, ld, o.maxIters, x⟩                                         -- 104
  | left + 1, niter, _, new, ld1 =>                                                     -- 96-97
    match arrUnit new with                                                              -- 98-99
    | .error f => .error f
    | .ok x =>
      let new := A *ᵥ x                                                                 -- 100
      let ld := x ⬝ᵥ new                                                                -- 101
      if |ld1 - ld| ≤ o.tolerance then .ok ⟨x, ld, niter, x⟩                             -- 102-103
      else powerLoop2 A o left (niter + 1) x new ld

/-- `power_iteration.py:76-104`, `power_iteration2`. -/
noncomputable def powerIteration2 (A : Mat n) (x : Vec n) (o : PowerOptions) : Except Fault (PowerResult n) :=
  match arrUnit x with                                                                  -- 93
  | .error f => .error f
  | .ok x => powerLoop2 A o o.maxIters 0 x (A *ᵥ x) (x ⬝ᵥ (A *ᵥ x))                      -- 94-95

open Classical in
/-- `power_iteration.py:127-144`: the loop of `power_iteration3`. -/
noncomputable def powerLoop3 (A : Mat n) (o : PowerOptions) : ℕ → ℕ → Vec n → Vec n → ℝ → Except Fault (PowerResult n)
  | 0, _, x, _, ld =>
    match arrUnit x with                                                                -- 143
    | .error f => .error f
    | .ok x => .ok ⟨x, ld, o.maxIters, x⟩                                                -- 144
  | left + 1, niter, _, new, ld1 =>                                                     -- 127-128
    let x := new                                                                        -- 129
    let dot := x ⬝ᵥ x                                                                   -- 130
    if 1e150 ≤ dot then                                                                 -- 131
      match arrUnit x with                                                              -- 132
      | .error f => .error f
      | .ok x =>
        let new := A *ᵥ x                                                               -- 133
        let ld := x ⬝ᵥ new                                                              -- 134
        if |ld1 - ld| ≤ o.tolerance then .ok ⟨x, ld, niter, x⟩                           -- 135-136
        else powerLoop3 A o left (niter + 1) x new ld
    else
      let new := A *ᵥ x                                                                 -- 138
      match pdiv (x ⬝ᵥ new) dot with                                                    -- 139
      | .error f => .error f
      | .ok ld =>
        if |ld1 - ld| ≤ o.tolerance then                                                -- 140
          match arrUnit x with                                                          -- 141
          | .error f => .error f
          | .ok x => .ok ⟨x, ld, niter, x⟩                                               -- 142
        else powerLoop3 A o left (niter + 1) x new ld

/-- `power_iteration.py:107-144`, `power_iteration3`. -/
noncomputable def powerIteration3 (A : Mat n) (x : Vec n) (o : PowerOptions) : Except Fault (PowerResult n) :=
  let new := A *ᵥ x                                                                     -- 124
  let dot := x ⬝ᵥ x                                                                     -- 125
  match pdiv (x ⬝ᵥ new) dot with                                                        -- 126
  | .error f => .error f
  | .ok ld => powerLoop3 A o o.maxIters 0 x new ld

end Ellalgo
