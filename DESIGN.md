# Formal model of luk036/ellalgo in Lean 4

## Layout

* `lean/Verif/Model/*`  - the model: one Lean definition per Python function, each citing file and lines.
* `lean/Verif/Spec/*`   - small independent specifications (ellipsoid as a set, cut validity, what a correct oracle is, ...).
* `lean/Verif/Lemmas/*` - helper lemmas.
* `lean/Verif/Py/*`     - the source text itself: a parser and an evaluator for the part of Python in which ellalgo is written (`Syntax`, `Parser`, `Semantics`), the unchanged source files
  (`Source/*`), rules for running them symbolically (`Exec`, `Arrays`, `Index`, `Lists`, `Program`), and proofs that running the text gives what the model says (`Refine/*`).
* `tools/check_source.py` - compares the quoted source files with the project and Lean's syntax trees with those of Python's `ast` module.
* `lean/Verif/Props/*`  - the property theorems (`Cxx_...`) and, beside each, an `example` meeting its hypotheses.

## Modelling decisions

* **Numbers.** Python/NumPy floats are modelled as exact real numbers (`ℝ`); properties say "in exact arithmetic" where this
  matters. The control loops (`cutting_plane.py`) are modelled over *arbitrary* types for points, cuts, numbers, spaces
  and oracles, so those theorems do not depend on exact arithmetic (they hold for IEEE floats, including NaN, as well).
  From C90 on, `Model/Rounded` repeats `ell_calc_core.py`, `ell_calc.py`, `ell.py` and `LDLTMgr.factor`, `witness`, `sym_quad` with a rounding after every operation; the arithmetic
  is a parameter, `Spec/Rounding` states the standard model (`Accurate`) and defines binary rounding to `p` bits (`ieee p`). Overflow, underflow, infinities and NaN stay outside.
* **Exceptions are values.** `Except Fault`. `assert` -> `Fault.assertion`; `math.sqrt` of a negative -> `Fault.mathDomain`;
  division by zero -> `Fault.zeroDivision` (CPython floats raise ZeroDivisionError, NumPy scalars give inf/nan with a warning; both leave
  the reals and both are mapped to this fault).
* **Mutation.** A method returns the new object state next to its outcome, so state changes that happen before an
  exception are visible. Array aliasing (`Ell` keeps a reference to the caller's array and updates it in place) is modelled separately with
  an explicit heap (`Model/Heap.lean`).
* **Loops** over index ranges are `forRange a b` folds mirroring `range(a, b)`; NumPy arrays in index loops are total functions on `ℕ`
  (out-of-range entries are never read in the modelled code; this is a theorem where it matters).
* **Oracles and spaces given by the user** are parameters: a stateful transition function.

## Trusted base

* Lean 4.33.0 kernel.
* Axioms: only `propext`, `Classical.choice`, `Quot.sound`. `AXIOMS.md` lists the axioms of every claimed theorem (`#print axioms`).
  There are no own axioms, no `sorry`, no `native_decide`/`bv_decide`.
* Mathlib definitions used in statements: `Matrix`, `PosDef`, `PosSemidef`, `Matrix.det`, inverse, `Real.sqrt/exp/log/cos`, `Complex.exp`, `Finset.sum`,
  Lebesgue measure `MeasureTheory.volume` on `Fin n → ℝ`, `ConvexOn`, `IsCompact`.
* The reading of the Python source recorded in the citations (file:lines) of every definition of `Model/`.
* For the files that C96 and later treat, this reading is not trusted: the model is proved equal to the evaluation of the source text. What is trusted instead is the parser (`Py/Parser`, checked against
  CPython's parser by `tools/check_source.py`) and the evaluator `Py/Semantics`, which does not mention ellalgo. Its simplifications are listed at its head: floats are reals with a
  rounding operator after every operation, slices of arrays are copies, lists are values, a function defined inside of another one captures the variables at the time of its definition, division by zero raises,
  `copy.deepcopy` copies all objects of the heap (those that the copy does not reach are garbage), `np.cos`, `np.log10`, `pow` are the exact functions rounded, `np.fft.fft`, `np.fft.ifft`, `np.convolve` are their documented sums rounded once, the handler of a `try` sees the variables as they were before the `try`, messages of exceptions are not computed, `float("-inf")` can only be stored and compared, a default argument is evaluated at every call,
  anything else outside of the subset is the outcome `stuck` about which no theorem speaks.

### What is modelled

| source | model |
|--------|-------|
| `ell_calc_core.py`, `ell_calc.py` (all methods) | `Model/EllCalcCore`, `Model/EllCalc` |
| `ell.py` (all methods), `ell_config.py` | `Model/Ell`, `Model/EllSpace`, `Model/Basic` |
| `ell_stable.py` (all methods) | `Model/EllStable`, `Model/EllStableSpace` |
| `cutting_plane.py` (all functions and `BSearchAdaptor`), `ell_typing.py` | `Model/CuttingPlane`; aliasing of arrays: `Model/Heap` |
| `conjugate_gradient.py` | `Model/ConjGrad` |
| `skeleton.py:fib` | `Model/Skeleton` |
| `oracles/ldlt_mgr.py` | `Model/Ldlt` |
| `oracles/lmi_oracle.py`, `lmi0_oracle.py`, `lmi_old_oracle.py` | `Model/Lmi` |
| `oracles/lowpass_oracle.py` | `Model/Lowpass` |
| `oracles/profit_oracle.py` | `Model/Profit` |
| `oracles/spectral_fact.py` | `Model/SpectralFact` |
| `ell1d.tpy` | `Model/Ell1d` |
| `ell_calc.tpy` (class EllCalc) | `Model/EllCalcTpy` |
| `oracles/lmi2_oracle.tpy`, `lmi3_oracle.tpy` | `Model/Lmi2` |
| `experiment/power_iteration.py` (functions) | `Model/PowerIteration` |
| `ell_calc_core.py`, `ell_calc.py`, `ell.py`, `ldlt_mgr.py` (factor, witness, sym_quad) once more, with rounding after every operation | `Model/Rounded` |
| `lmi_oracle.py`, `lmi0_oracle.py`, `lmi_old_oracle.py` once more, with rounding after every operation | `Model/RoundedLmi` |
| `ldlt_mgr.py`: `factor_with_allow_semidefinite` and `sqrt` once more, with rounding after every operation | `Model/RoundedLdlt` |
| `ell_stable.py` once more, with rounding after every operation | `Model/RoundedStable` |
| `oracles/profit_oracle.py` once more, with rounding after every operation | `Model/RoundedProfit` |
| `conjugate_gradient.py` once more, with rounding after every operation, and the values of `solution` in a run | `Model/RoundedConjGrad`, `Model/RoundedCGTrace` |
| `power_iteration` and its three variants once more, with rounding after every operation | `Model/RoundedPower`, `Model/RoundedPower2`, `Model/RoundedPower3`, `Model/RoundedPower4` |
| `ell1d.tpy` once more, with rounding after every operation | `Model/RoundedEll1d` |
| `oracles/lowpass_oracle.py` once more, with rounding after every operation | `Model/RoundedLowpass` |
| `ell_config.py`, `ell_calc_core.py`, `ell_calc.py`, `ell.py`, `ell_stable.py`, `cutting_plane.py`, `conjugate_gradient.py`, `ldlt_mgr.py`, `lmi_oracle.py`, `lmi0_oracle.py`, `lmi_old_oracle.py`, `profit_oracle.py`, `lowpass_oracle.py`, `spectral_fact.py`, `skeleton.py` (`fib`) as text | `Py/Source/*` |
| `experiment/power_iteration.py` (functions), `ell1d.tpy` as text, each a program of its own | `Py/Source/PowerIteration`, `Py/Source/Ell1dTpy` |
| `ell_calc.tpy` as text, a program of its own. The templates `lmi2_oracle.tpy` and `lmi3_oracle.tpy` stay hand-written models: they import a module `chol_ext` that is not in the repository, and use `Optional` without importing it, so there is no program to run | `Py/Source/EllCalcTpy` |

### What is not modelled

IEEE rounding outside `Model/Rounded`, `Model/RoundedLdlt`, `Model/RoundedLmi`, `Model/RoundedStable`, `Model/RoundedProfit`, `Model/RoundedConjGrad`, `Model/RoundedPower`, `Model/RoundedPower2`, `Model/RoundedPower3`, `Model/RoundedPower4`, `Model/RoundedEll1d` and `Model/RoundedLowpass` (`cutting_plane.py` is modelled over arbitrary types and so covers it); overflow, underflow, infinities and NaN everywhere; NumPy dtypes, broadcasting and warnings, logging/argparse in
`skeleton.py`, package metadata in `__init__.py`, plotting, notebooks and docs.

## Plan per property

| id | model | proof |
|----|-------|-------|
| C01-C06 | `EllCalcCore`, `EllCalc`, `Ell._update_core` over `Matrix (Fin n) (Fin n) ℝ` | one slab-containment lemma: any (rho,sigma,delta) with 2rho=sigma(b0+b1), delta(1-sigma)tau²=(1-sigma)tau²+rho²-sigma b0 b1, 0<=sigma<=1 keeps the slab; each branch of the code satisfies it |
| C03 | same | negation by concrete witness where tau²+n b0 b1<0, partial for >=0; `C03_keeps_iff` (Props/ShallowParallel) gives the exact condition for every successful cut with a pair |
| C07 | same | matrix determinant lemma; bound for single cut by 1+x<=e^x; for parallel cut by minimality of sigma in its family |
| C08-C13 | same | invariant / bisimulation by induction over histories |
| C14-C15 | `EllStable._update_core` with its four loops | loop invariants; LDLᵀ rank-one update; Sherman-Morrison; C15 refuted by a concrete two-cut history; `C15_observable_iff` (Props/StableFlag, by uniqueness of LDLᵀ) says exactly when the flag shows |
| C16-C19 | `EllCalcCore` | real algebra |
| C20,C21,C24,C25,C28,C29 | generic loops | induction on remaining iterations |
| C22,C23,C26,C27 | generic loops instantiated with `Ell` | invariant "F inside ellipsoid" + determinant potential |
| C30,C31 | heap model | simulation heap/value; C31 refuted |
| C32-C36 | `bsearch`, `BSearchAdaptor` | loop invariants |
| C37-C42 | `LDLTMgr` with storage array | loop invariants; C42 refuted by [[0,1],[1,0]], one direction kept |
| C43-C46 | LMI oracles | from C37-C39 |
| C47-C49 | `LowpassOracle` with its three round-robin indices | round-robin scan visits every index |
| C50-C53 | profit oracles with exp/log | weighted AM-GM (Jensen for exp); C53 refuted by a concrete instance (sign of the rounding correction) |
| C54-C56 | `conjugate_gradient` | residual invariant; orthogonality of residuals; C56 refuted |
| C57-C58 | `spectral_fact` | finite sums; DFT over `ZMod` |
| C59 | `fib` | induction |
| C60 | constructors | algebra |
| C61-C62 | `Props/Lowpass` | C22 instantiated with the filter oracle (gradients bounded by the cosine rows); C62 by index arithmetic |
| C63 | `Props/Tolerance` | width of the ellipsoid along the last gradient against `tsq` |
| C64-C66 | `Props/ProfitLoop` | loop invariants instantiated with the profit oracles |
| C67 | `Props/ConjGrad` | run as a recursion, Krylov optimality |
| C68-C70 | `Props/Spectral` | DFT/Hilbert transform over `ZMod`, polynomial exponential; C69 refuted |
| C71-C72 | `Props/MinVolume`, `Props/LebesgueVolume` | weak duality (a certificate quadratic), AM-GM on eigenvalues, change of variables for Lebesgue measure |
| C73 | `Props/LebesgueVolume` | determinant potential against a fixed set of positive measure |
| C74-C75 | `Lemmas/Simulation`, `Props/StableLoops` | simulation relation `mq = L D⁻¹ Lᵀ`, lifted through all loops |
| C76 | `Props/Semidefinite` | invariant on the restart index and the leading blocks |
| C77 | `Spec/Convex`, `Props/Accuracy` | the set `x* + eps (A - x*)` has volume `eps^n vol A` and lies in the level set |
| C78 | `Props/LmiConverge` | homothetic copy of the ellipsoid around the strictly feasible point |
| C79 | `Props/Monotone` | from C72 (competitor = the other ellipsoid) |
| C80 | `Lemmas/Rename`, `Props/Affine` | naturality of the generic loops under a renaming of spaces, points and cuts |
| C81 | `Props/BSearchEll` | refuted by a drifting oracle; partial by C73 at each probe |
| C82 | `Props/SoundnessQ` | invariant over traces of the discrete loop, retries included |
| C83 | `Props/Ell1d` | interval arithmetic; induction over histories |
| C84 | `Props/Lmi2` | from C37, C39, C43 |
| C85-C88 | `Spec/Power`, `Props/Power`, `Props/PowerConverge` | loop invariants against a relational specification; log-convexity of the moments `xᵀA^j x`; spectral theorem; C88 refuted |
| C89 | `Props/EllCalcTpy` | both versions reduced to the same closed formulas; every exceptional input characterised |
| C90 | `Props/Rounded` | rounded model with the arithmetic as a parameter; symmetry by induction over the history, frame by cases on the strategy; `exact` instance = exact model |
| C91 | `Props/RoundedContainment`, `Lemmas/RoundedGeom`, `Lemmas/Rel`, `Lemmas/RoundedParams` | relative errors as exponents through the formulas; perturbation of the support function of the new ellipsoid; counterexample from the rounding of 1/3 |
| C92 | `Props/RoundedLdlt`, `Lemmas/RoundedLdlt` | loop invariant relating the stored factors to `A` up to relative errors; perturbation of the quadratic form; two counterexamples in double precision computed by hand |
| C93 | `Props/RoundedLmi` on `Model/RoundedLmi` | entries of the matrix up to relative errors of `|B| + Σ|x_k||F_k|`, then C92 and the error of `sym_quad`; counterexample in double precision computed by hand |
| C94 | `Props/RoundedRun` with `Spec/RoundedRun` | the exact slab lemma on an ellipsoid stretched by `φ` and a half space relaxed by `s τ` (`bias_slabSound_infl`), then C91 per step and induction on the history; condition number, smallest axis and centre are bounded step by step for the version with conditions on the first ellipsoid only |
| C95 | `Props/RoundedStable` on `Model/RoundedStable` | roundings with relative error below 1 keep signs; loop invariants for the forward substitution (the residual of a gradient that is not zero stays not zero) and for the rank-one loop (`v_j` is exactly the stored residual, so that every increment of `t` is nonnegative); C91's bounds on the parameters; induction on the history; one deep cut in double precision computed by hand |
| C96 | `Py/Refine/EllCalcCore`, `Py/Refine/EllCalc` | symbolic execution of the text by a simp set; the offsets by cases on their type and length |
| C97 | `Py/Refine/Ell`, `Props/SourceEll` | symbolic execution on a heap, with a frame; induction on the history; then C01 and C08 |
| C98 | `Py/Refine/CuttingPlane`, `Py/Refine/Runs`, `Py/Refine/Adaptor`, `Py/Refine/User`, `Props/SourceRuns` | induction on the remaining iterations with a relation between heap and model that the methods of space and oracle preserve; ownership of locations; then C22, C23, C77 |
| C99 | `Py/Index`, `Py/Refine/LdltMgr`, `Py/Refine/LdltWit`, `Model/RoundedLdlt`, `Props/SourceLdlt` | symbolic execution of the nested loops on a heap, with a relation for `get_elem` that records the calls; then C37 to C42 and C92 |
| C100 | `Py/Lists`, `Py/Refine/Lmi`, `Props/SourceLmi` | the closures `get_elem` and the comprehensions as instances of the interfaces of C98 and C99; then C78 and C93 |
| C101 | `Py/Refine/StableLoops`, `Py/Refine/EllStable`, `Props/SourceStable` | symbolic execution of the nested loops of `_update_core` on a heap; the interface of C98 with a flag that forbids the array of the centre as gradient; then C74, C75, C78 and C95 |
| C102 | `Props/SourceStable` | counterexample computed on a heap; the rest by C101, C01 and C06 |
| C103 | `Py/Refine/Profit`, `Py/Refine/ProfitRb`, `Py/Refine/ProfitQ`, `Model/RoundedProfit`, `Props/SourceProfit` | symbolic execution of the methods on a heap, as instances of the interfaces of C98 (which separate what an oracle owns from what it writes); then C64, C65 and C66 |
| C104 | `Py/Refine/ConjGrad`, `Model/RoundedConjGrad`, `Props/SourceConjGrad` | symbolic execution of one pass of the loop on a heap, induction on the number of passes; then C54, C56 and C67 |
| C105 | `Py/Refine/Lowpass`, `Model/RoundedLowpass`, `Props/SourceLowpass` | symbolic execution of the constructor and of the four scans, each by induction on the remaining frequencies; the loops by C96/C101; then C20, C23 and C61, carried over to EllStable by C74 |
| C106 | `Props/RoundedConverge`, `Lemmas/RoundedConverge` with `Spec/RoundedConverge` | along a run a ball of radius at least `r/2` around `c` stays in the ellipsoid (the stretching of C94 is additive, not multiplicative, when measured from the centre of the ball), so the smallest semi-axis is at least `r/2`; the determinant falls by a fixed factor, so the number of steps is bounded; the longest semi-axis by the growth per step; these bound the condition number and hence the error of every step |
| C107 | `Props/SourceConverge` | the rounded cut of C93 keeps every ball where the inequality holds with a margin above the rounding errors, and its gradient is bounded from below (`lmi_inner`), so it is an oracle for C106; the text by C98 and C100 |
| C108 | `Py/Refine/Spectral`, `Py/Refine/Skeleton`, `Props/SourceSpectral` | symbolic execution statement by statement on a heap, the arrays by their sums; then C57 to C59, C68 and C70 |
| C109 | `Py/Refine/AdaptorStable`, `Props/StableBSearch`, `Props/SourceBSearch` | the deep copy of an `EllStable` on the heap; simulation of the tests next to those with `Ell` (C74); induction on the tests for the accuracy (C75, C81) |
| C110 | `Py/Refine/Power`, `Props/SourcePower` | symbolic execution of the four loops with an invariant on the heap; then C85 to C87. Exact arithmetic, arrays of length at least one; an array divided by zero raises |
| C111 | `Py/Refine/Ell1d`, `Props/SourceEll1d` | symbolic execution branch by branch, induction on the calls; then C83 |
| C112 | `Props/RoundedParallel`, `Lemmas/ParBounds`, `Lemmas/RoundedParallel`, `Lemmas/RoundedPair` | bounds on the exact parameters of a slab of relative width at least `a`; relative errors through the parallel formulas, with `ξ²` bounded from below because it is a sum that can cancel; then the perturbation lemma of C91. If the computed `tsq` is at most `β1²` the call is the single cut of C91; otherwise `β1` exceeds `τ` by rounding errors at most |
| C113 | `Spec/RoundedPairConverge`, `Lemmas/AxisGrowth`, `Lemmas/RoundedPairConverge`, `Props/RoundedPairConverge` | invariant along the run: the ball, shrunk a little per cut, is in the ellipsoid; the squared volume has fallen by `exp(-9/(10(n+1)))` per cut; and (largest semi-axis)^(2(n-1)) times the squared volume has grown by at most `exp(1/(10(n+1)))` per cut. In exact arithmetic the last product never grows (`axis_vol`), although one pair can stretch the ellipsoid by √2; together with the volume of the ball it bounds the semi-axes, hence the condition number, hence the rounding errors |
| C114 | `Spec/RoundedLowpass`, `Lemmas/RoundedLowpass`, `Lemmas/RoundedSpectrum`, `Lemmas/RoundedLowpassCuts`, `Lemmas/RoundedLowpassOracle`, `Props/RoundedLowpassDesign` | error of the rows (five roundings in the frequency, cos is 1-Lipschitz) and of the inner products; the scans by induction as in C47, with the computed responses; a ball of radius `2r` of feasible filters leaves slack `r` on the ball of radius `r`, because every row has length at least 1, and the slack absorbs the errors of the offsets: so the oracle is one of C113; the text by C105 |
| C115 | `Py/Refine/EllCalcTpy`, `Props/SourceCalcTpy` | symbolic execution of every method of the template; then C89 for the models, and C96 for the shipped file |
| C116 | `Props/SourcePairConverge` | C113 through the simulation of C98 |
| C117 | `Lemmas/RoundMono`, `Spec/RoundedBSearch`, `Props/RoundedBSearch`, `Props/SourceRoundedBSearch` | rounding is monotone and fixes machine numbers, so the midpoint stays in the interval; induction over the trace of tests; then C107/C113 for each test and the simulation of C98 |
| C118 | the same files | two different machine numbers above `lower` are at least `2^-p lower` apart, so `tau` stays above the tolerance |
| C119 | `Props/RoundedIntBSearch` | integers up to 2^p are machine numbers and rounding is monotone, so the tested value is one of the two integers next to the mean; induction over the trace; the counterexample is a fixed point of the loop |
| C120 | `Props/RoundedNear`, `Props/RoundedProfit`, `Props/SourceRoundedProfit`; vocabulary `Spec/RoundedNear`, `Spec/RoundedProfit` | the loop with values that may fall by `d`: the ball survives until the target is reported, the volume argument of C98 bounds the iterations, each later iteration loses at most `d`; for the oracle, relative errors of exp, log and the sums give the cut up to an offset paid by the factor to spare, and the drop of the subtraction is at most `9 u W (1 + ln W)` |
| C121 | `Props/RoundedProfitRb`, `Props/SourceRoundedProfitRb`; vocabulary `Spec/RoundedProfitRb` | at each point the robust oracle is the plain one for a problem whose data are the rounded worst ones there, so C120's oracle lemma applies pointwise; perturbed data change log-revenue and costs by relative errors, and the worst scenario bounds all others |
| C122 | `Props/RoundedProfitHonest`, `Props/SourceRoundedProfitHonest`; vocabulary `Spec/RoundedProfitQ` | the pair returned is one the oracle reported (C24, C29); every report is near the profit (C120); rounding keeps integers integers, so the point of the discrete oracle is the rounded logarithm of an integer design |
| C123 | `Props/SourceHonest`; vocabulary `Spec/RoundedHonest` | the point returned is one the oracle accepted (C20, C24), whatever the search space did; acceptance means near-feasibility by the error analysis of one evaluation (C93 for the matrices, C114 for the filter); the text runs as the model on both search spaces (C98, C101, C105) |
| C124 | `Props/RoundedCholesky`; vocabulary `Spec/RoundedCholesky` | loop invariant of `sqrt` (entries are the rounded products of the stored factor and the rounded roots of the pivots), then the entrywise error of the factorization (C92), with the diagonal of the computed product bounded by 4/3 of that of the matrix; from the text by the refinement of the methods of `LDLTMgr` (C99) |
| C125 | `Props/RoundedResidual`; vocabulary `Spec/RoundedResidual`; model `Model/RoundedCGTrace` | invariant of the loop: each entry of `b - A x - r` is at most a multiple of that of `\|b\| + \|A\| X`, which grows by a factor `1 + γ` and `13 γ` in a pass; the size of step times direction is bounded by the old and the new `solution`; the test on the computed length bounds the true length of `r`. The counterexample rounds a third to `p` bits and back; the text runs as the model (C104) |
| C126 | `Props/RoundedPower`; vocabulary `Spec/RoundedPower`; model `Model/RoundedPower` | every vector after a normalisation has length one up to 4 γ (invariant of the loop); the pass that stops gives `A x = ± c x` up to the tolerance and the rounding errors of one product and one division; the Rayleigh quotient is the best multiple, and the computed one is close to it; an eigenvalue nearby as in C86 |
| C127 | `Py/Refine/RoundedEll1d`, `Props/RoundedEll1d`, `Props/SourceRoundedEll1d`; vocabulary `Spec/RoundedEll1d`; model `Model/RoundedEll1d` | each end of the interval moves by at most 10 u (|xc| + |rd|) in an update, case by case; induction on the calls; the text by symbolic execution in any arithmetic; the witness for a negative half-width by evaluating the eleven rounded operations |
| C128 | `Props/RoundedEll1dRate` | the ends after a successful update are those of exact arithmetic up to 9 u M (C127), so the half-width is halved up to that; induction on the calls |
| C129 | `Props/RoundedPower4`; model `Model/RoundedPower4`; vocabulary `Spec/RoundedPower` | the pass that stops gives `A x = ± c x` up to the tolerance and rounding errors relative to the length of `x`, which is at least `0.98 / √n`; the final normalisation and the Rayleigh quotient as in C126 |
| C130 | `Props/RoundedPower2`; model `Model/RoundedPower2`; vocabulary `Spec/RoundedPower` | Cauchy-Schwarz for the semidefinite form of `A`, between a vector and its computed image: the squared residual is at most the Rayleigh quotient times its growth, plus the rounding error of the image |
| C131 | `Props/RoundedPower3`; model `Model/RoundedPower3`; vocabulary `Spec/RoundedPower` | the estimate of C130 does not depend on the length of the vector; the computed quotient of a vector of any length, and the division by the length at the end |
| C132 | `Props/RoundedPowerRuns`; models `Model/RoundedPower`, `Model/RoundedPower2`, `Model/RoundedPower3`, `Model/RoundedPower4`; vocabulary `Spec/RoundedPower` | the computed image of a vector has length at least `(m - γ L)` times that of the vector, so it is never zero; induction on the passes |
| C133 | `Props/PowerIndefinite` | the first pass of both functions computed for every `a`, in any arithmetic in which the few numbers that occur are exact; the text by the refinement of C110 |
| C134 | `Props/PowerStalls` | the passes swap two vectors at distance 2; induction on the passes, in any arithmetic in which the few numbers that occur are exact; the text by the refinement of C110 |
| C135 | `Props/PowerScale` | rounding to `p` bits commutes with multiplication by a power of two, hence so do sums of products; divisions by a length cancel the factor; induction on the passes |
| C136 | `Props/RoundedScale` | the exact proof of C12 repeated with a rounding after every operation: each rounding commutes with the power of two, and the quotients by `omega` cancel it |
| C137 | `Props/RoundedScaleRun` | induction on the calls with C136; no method reads `_tsq` before writing it, so the two objects may differ in it |
| C138 | `Props/RoundedScaleStable` | a relation between the two runs of every loop: entries on and below the diagonal equal, the vectors and the scratch entries multiplied by the power of two; induction on the calls |

## Claims that are false of the code

Refuted by a theorem `Cxx_refuted` (or a counterexample theorem named in MANIFEST.json), with the true part proved beside it: C03, C13, C15, C31, C42, C53, C56, C69, C81, C88, C102; C16 has one exceptional
point, which is proved to be one.
