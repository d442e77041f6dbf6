{"id": "C01", "title": "A deep cut never loses a solution", "statement": "In exact arithmetic, if Ell.update_bias_cut((g, beta)) with a scalar beta >= 0 returns Success, then every point x of the current ellipsoid {x : (x-xc)^T M^-1 (x-xc) <= kappa} with g^T(x-xc)+beta <= 0 belongs to the updated ellipsoid.", "quantifier": "all dimensions n>=2, all symmetric positive definite shape matrices, kappa>0, all nonzero gradients, all beta>=0, all points x", "why_tests_cant": "The claim ranges over a continuum of real inputs (all dimensions, shape matrices, gradients and offsets); tests sample finitely many.", "anchors": ["src/ellalgo/ell.py:Ell.update_bias_cut", "src/ellalgo/ell.py:Ell._update_core", "src/ellalgo/ell_calc.py:EllCalc.calc_bias_cut", "src/ellalgo/ell_calc_core.py:EllCalcCore.calc_bias_cut_fast"]}
{"id": "C02", "title": "A parallel cut with beta0 >= 0 never loses a solution", "statement": "In exact arithmetic, if Ell.update_bias_cut((g,[beta0,beta1])) with 0<=beta0 returns Success, every x of the current ellipsoid with g^T(x-xc)+beta0 <= 0 <= g^T(x-xc)+beta1 belongs to the updated ellipsoid, whether the parallel formula, the single-cut fallback or use_parallel_cut=False is used.", "quantifier": "all n>=2, all ellipsoids, all gradients, all beta0<=beta1 with beta0>=0, both settings of use_parallel_cut", "why_tests_cant": "The claim ranges over a continuum of real inputs (all dimensions, shape matrices, gradients and offsets); tests sample finitely many.", "anchors": ["src/ellalgo/ell_calc.py:EllCalc.calc_parallel", "src/ellalgo/ell_calc.py:EllCalc.calc_single_or_parallel", "src/ellalgo/ell_calc_core.py:EllCalcCore.calc_parallel_bias_cut_fast"]}
{"id": "C03", "title": "Shallow parallel cuts through update_bias_cut keep every solution", "statement": "In exact arithmetic, for every parallel cut beta0<=beta1 (beta0 may be negative) for which update_bias_cut returns Success, every point of the ellipsoid between the two hyperplanes belongs to the updated ellipsoid.", "quantifier": "all n>=2, all ellipsoids, all real beta0<=beta1", "why_tests_cant": "The claim ranges over a continuum of real inputs (all dimensions, shape matrices, gradients and offsets); tests sample finitely many. The failing region (tau^2 + n*beta0*beta1 < 0) is never generated by the tests' strategies.", "anchors": ["src/ellalgo/ell_calc.py:EllCalc.calc_parallel", "src/ellalgo/ell_calc_core.py:EllCalcCore.calc_parallel_bias_cut"]}
{"id": "C04", "title": "A central cut never loses a solution", "statement": "In exact arithmetic, if Ell.update_central_cut((g,beta)) returns Success then every x of the ellipsoid with g^T(x-xc) <= 0 (and, if beta is a pair, g^T(x-xc)+beta[1] >= 0) belongs to the updated ellipsoid.", "quantifier": "all n>=2, all ellipsoids, gradients, scalar and pair offsets", "why_tests_cant": "The claim ranges over a continuum of real inputs (all dimensions, shape matrices, gradients and offsets); tests sample finitely many.", "anchors": ["src/ellalgo/ell.py:Ell.update_central_cut", "src/ellalgo/ell_calc.py:EllCalc.calc_single_or_parallel_central_cut", "src/ellalgo/ell_calc_core.py:EllCalcCore.calc_parallel_central_cut"]}
{"id": "C05", "title": "update_q never loses a solution, even for shallow cuts", "statement": "In exact arithmetic, if Ell.update_q((g,beta)) returns Success for any real scalar beta or pair beta0<=beta1 (either sign), every point of the ellipsoid satisfying the cut belongs to the updated ellipsoid.", "quantifier": "all n>=2, all ellipsoids, gradients, offsets of any sign", "why_tests_cant": "The claim ranges over a continuum of real inputs (all dimensions, shape matrices, gradients and offsets); tests sample finitely many.", "anchors": ["src/ellalgo/ell.py:Ell.update_q", "src/ellalgo/ell_calc.py:EllCalc.calc_bias_cut_q", "src/ellalgo/ell_calc.py:EllCalc.calc_parallel_q"]}
{"id": "C06", "title": "NoSoln is sound", "statement": "If update_bias_cut, update_central_cut or update_q returns NoSoln, no point of the current ellipsoid satisfies the cut.", "quantifier": "all ellipsoids, all cuts, all three update methods", "why_tests_cant": "The claim ranges over a continuum of real inputs (all dimensions, shape matrices, gradients and offsets); tests sample finitely many.", "anchors": ["src/ellalgo/ell_calc.py:EllCalc.calc_bias_cut", "src/ellalgo/ell_calc.py:EllCalc.calc_parallel", "src/ellalgo/ell_calc.py:EllCalc.calc_bias_cut_q", "src/ellalgo/ell_calc.py:EllCalc.calc_parallel_q", "src/ellalgo/ell_calc.py:EllCalc.calc_single_or_parallel_central_cut"]}
{"id": "C07", "title": "Every successful cut with beta0 >= 0 shrinks the ellipsoid by a dimension-only factor", "statement": "In exact arithmetic det(kappa*M), i.e. the squared volume up to a constant, is multiplied by at most exp(-1/(n+1)) by every successful update_bias_cut or update_central_cut whose first offset is >= 0, single or parallel.", "quantifier": "all n>=2, all ellipsoids, all cuts with first offset >= 0", "why_tests_cant": "The claim ranges over a continuum of real inputs (all dimensions, shape matrices, gradients and offsets); tests sample finitely many. A rate bound is a statement about all n and all cuts.", "anchors": ["src/ellalgo/ell.py:Ell._update_core", "src/ellalgo/ell_calc_core.py:EllCalcCore"]}
{"id": "C08", "title": "The search space stays a genuine ellipsoid over any history", "statement": "In exact arithmetic, starting from Ell(val>0, x0), after any finite sequence of strict cuts (0 <= beta < tau, or 0<=beta0<beta1) the shape matrix is symmetric positive definite and kappa > 0.", "quantifier": "all n, all finite sequences of update_bias_cut/update_central_cut calls", "why_tests_cant": "Quantifies over unbounded histories of updates.", "anchors": ["src/ellalgo/ell.py:Ell._update_core"]}
{"id": "C09", "title": "A failed cut changes nothing but tsq", "statement": "If an update method of Ell returns NoSoln or NoEffect (or raises), xc, shape matrix and kappa are exactly as before.", "quantifier": "all states, all cuts, all three update methods, any cut strategy", "why_tests_cant": "Ranges over all states and all cuts, including those produced by arbitrary strategies.", "anchors": ["src/ellalgo/ell.py:Ell._update_core"]}
{"id": "C10", "title": "tsq is the squared half-width of the ellipsoid in the cut direction", "statement": "After an update that computed it, tsq() equals kappa*g^T M g of the ellipsoid before the update, which is the maximum over that ellipsoid of (g^T(x-xc))^2 (attained).", "quantifier": "all ellipsoids and gradients", "why_tests_cant": "The claim ranges over a continuum of real inputs (all dimensions, shape matrices, gradients and offsets); tests sample finitely many.", "anchors": ["src/ellalgo/ell.py:Ell.tsq", "src/ellalgo/ell.py:Ell._update_core"]}
{"id": "C11", "title": "The new centre satisfies the cut and lies in the old ellipsoid", "statement": "After a successful update_bias_cut with scalar 0<=beta, or update_central_cut, the new centre satisfies g^T(xc'-xc)+beta <= 0 and belongs to the old ellipsoid.", "quantifier": "all n>=2, all ellipsoids, all cuts", "why_tests_cant": "The claim ranges over a continuum of real inputs (all dimensions, shape matrices, gradients and offsets); tests sample finitely many.", "anchors": ["src/ellalgo/ell.py:Ell._update_core", "src/ellalgo/ell_calc_core.py:EllCalcCore.calc_bias_cut_fast"]}
{"id": "C12", "title": "Cuts are scale invariant", "statement": "Applying the cut (c*g, c*beta) for any c>0 gives the same status and the same xc, M and kappa as (g, beta), for all three update methods, single and parallel.", "quantifier": "all c>0, all ellipsoids, all cuts", "why_tests_cant": "The claim ranges over a continuum of real inputs (all dimensions, shape matrices, gradients and offsets); tests sample finitely many.", "anchors": ["src/ellalgo/ell.py:Ell._update_core", "src/ellalgo/ell_calc.py:EllCalc"]}
{"id": "C13", "title": "no_defer_trick is unobservable for Ell", "statement": "For any history of cuts, an Ell with no_defer_trick=True and one with False report the same statuses, the same xc, the same tsq and the same product kappa*M at every step.", "quantifier": "all finite histories of update_bias_cut/update_central_cut/update_q", "why_tests_cant": "Unbounded histories; both settings run in lockstep.", "anchors": ["src/ellalgo/ell.py:Ell.no_defer_trick", "src/ellalgo/ell.py:Ell._update_core"]}
{"id": "C14", "title": "EllStable and Ell are interchangeable", "statement": "In exact arithmetic, for any history of cuts with nonzero gradients whose updates keep the shape nonsingular, EllStable returns the same statuses, xc, tsq and kappa as Ell, and its stored factors always represent Ell's shape matrix.", "quantifier": "all n>=2, all finite histories of cuts", "why_tests_cant": "Refinement between two implementations over unbounded histories.", "anchors": ["src/ellalgo/ell_stable.py:EllStable._update_core", "src/ellalgo/ell.py:Ell._update_core"]}
{"id": "C15", "title": "no_defer_trick is unobservable for EllStable", "statement": "For any history of cuts, EllStable with no_defer_trick=True gives the same statuses, xc and tsq as with no_defer_trick=False.", "quantifier": "all finite histories of cuts", "why_tests_cant": "The existing test only checks one step from the identity; the divergence needs a second cut.", "anchors": ["src/ellalgo/ell_stable.py:EllStable.no_defer_trick", "src/ellalgo/ell_stable.py:EllStable._update_core"]}
{"id": "C16", "title": "The parallel-cut formula variants agree", "statement": "In exact arithmetic calc_parallel_bias_cut, calc_parallel_bias_cut_fast, _fast_old, _fast2 and _old return the same (rho, sigma, delta) on their common domain; calc_parallel_central_cut equals _old and equals calc_parallel_bias_cut with beta0=0; bias cut with beta=0 equals the central cut; the parallel cut with beta1=tau equals the bias cut.", "quantifier": "all n>=2, all beta0<beta1, tsq with |beta_i|<tau", "why_tests_cant": "The claim ranges over a continuum of real inputs (all dimensions, shape matrices, gradients and offsets); tests sample finitely many.", "anchors": ["src/ellalgo/ell_calc_core.py:EllCalcCore.calc_parallel_bias_cut_fast_old", "src/ellalgo/ell_calc_core.py:EllCalcCore.calc_parallel_bias_cut_fast2", "src/ellalgo/ell_calc_core.py:EllCalcCore.calc_parallel_bias_cut_old", "src/ellalgo/ell_calc_core.py:EllCalcCore.calc_parallel_central_cut_old"]}
{"id": "C17", "title": "Cut-type dispatch", "statement": "A scalar, a one-element sequence, or any sequence with use_parallel_cut=False is treated as the single cut with its first offset (the central variant ignores it); a two-element sequence with use_parallel_cut=True is treated as a parallel cut; a None second offset raises AssertionError, an empty sequence raises (except in the central variant).", "quantifier": "all offsets, all tsq, both flag values, all three dispatchers", "why_tests_cant": "Finite tests sample; claim is for every offset and tsq.", "anchors": ["src/ellalgo/ell_calc.py:EllCalc.calc_single_or_parallel", "src/ellalgo/ell_calc.py:EllCalc.calc_single_or_parallel_central_cut", "src/ellalgo/ell_calc.py:EllCalc.calc_single_or_parallel_q"]}
{"id": "C18", "title": "Valid cuts never raise", "statement": "For n>=2, tsq>0 and beta0>=0 (any beta in the q and central variants) none of the dispatch methods raises or divides by zero; in particular the square root in the parallel formula never sees a negative argument.", "quantifier": "all n>=2, tsq>0, all admissible offsets", "why_tests_cant": "The claim ranges over a continuum of real inputs (all dimensions, shape matrices, gradients and offsets); tests sample finitely many.", "anchors": ["src/ellalgo/ell_calc.py:EllCalc", "src/ellalgo/ell_calc_core.py:EllCalcCore"]}
{"id": "C19", "title": "Parameter ranges", "statement": "For 0<=beta<=tau the single cut gives beta <= rho <= tau, 0 < sigma <= 1, delta >= 0 with sigma<1 and delta>0 iff beta<tau; for the parallel cut with 0<=beta0<beta1<tau: beta0 < rho < beta1, 0<sigma<1, delta>0.", "quantifier": "all n>=2, tsq>0, all offsets", "why_tests_cant": "The claim ranges over a continuum of real inputs (all dimensions, shape matrices, gradients and offsets); tests sample finitely many.", "anchors": ["src/ellalgo/ell_calc_core.py:EllCalcCore"]}
{"id": "C20", "title": "cutting_plane_feas only returns points the oracle accepted", "statement": "If cutting_plane_feas returns (x, k) with x not None, the oracle answered None on exactly x at its k-th call (counting from 0), x is the search space's current centre, and k < max_iters.", "quantifier": "every oracle (stateful), every search space, every options value, every number type", "why_tests_cant": "Quantifies over arbitrary oracle and space implementations.", "anchors": ["src/ellalgo/cutting_plane.py:cutting_plane_feas"]}
{"id": "C21", "title": "cutting_plane_feas gives up only for a stated reason", "statement": "If it returns (None, k): either k = max_iters, or the update at iteration k returned a status other than Success or left tsq below the tolerance; the oracle has been consulted exactly min(k+1, max_iters) times.", "quantifier": "every oracle, space and options", "why_tests_cant": "Arbitrary implementations and iteration counts.", "anchors": ["src/ellalgo/cutting_plane.py:cutting_plane_feas"]}
{"id": "C22", "title": "Infeasibility verdicts are sound", "statement": "In exact arithmetic, with a separating oracle for a set F contained in the initial ellipsoid, F stays inside the ellipsoid at every iteration, and if cutting_plane_feas stops because an update returned NoSoln then F is empty.", "quantifier": "all n>=2, all sets F, all correct oracles, all initial ellipsoids, all iteration counts", "why_tests_cant": "Quantifies over all feasible sets and oracles.", "anchors": ["src/ellalgo/cutting_plane.py:cutting_plane_feas", "src/ellalgo/ell.py:Ell"]}
{"id": "C23", "title": "cutting_plane_feas converges in O(n^2 log(R/r)) iterations", "statement": "In exact arithmetic, if F lies in the ball of radius R around x0, contains a ball of radius r, the oracle is separating with ||g|| >= 1, and tolerance <= r^2, then cutting_plane_feas(omega, Ell(R^2,x0)) with max_iters > 2n(n+1)ln(R/r) returns a point of F.", "quantifier": "all n>=2, all F, R, r, all correct oracles", "why_tests_cant": "A termination bound for every problem instance.", "anchors": ["src/ellalgo/cutting_plane.py:cutting_plane_feas", "src/ellalgo/ell.py:Ell"]}
{"id": "C24", "title": "cutting_plane_optim returns a consistent (x_best, gamma) pair", "statement": "The returned gamma is the last value the oracle reported (or the initial gamma if it never reported one), and x_best is a snapshot of the centre at which it reported it (None if never); later cuts do not alter it.", "quantifier": "every oracle, space, options", "why_tests_cant": "Arbitrary oracles and histories.", "anchors": ["src/ellalgo/cutting_plane.py:cutting_plane_optim"]}
{"id": "C25", "title": "gamma is monotone under cutting_plane_optim", "statement": "If every gamma the oracle reports is at least as good as the one it was given, the returned gamma is at least as good as the initial one, and the sequence of gammas passed to the oracle is monotone.", "quantifier": "every oracle with the stated local property, any preorder on gamma", "why_tests_cant": "Arbitrary histories.", "anchors": ["src/ellalgo/cutting_plane.py:cutting_plane_optim"]}
{"id": "C26", "title": "Optimality verdicts are sound", "statement": "In exact arithmetic, with a correct optimisation oracle whose level sets {x : value at least gamma} lie in the initial ellipsoid, every point at least as good as the current gamma stays in the ellipsoid; if cutting_plane_optim stops with NoSoln then no point is at least as good as the returned gamma.", "quantifier": "all level-set families, correct oracles, ellipsoids", "why_tests_cant": "All problems and histories.", "anchors": ["src/ellalgo/cutting_plane.py:cutting_plane_optim", "src/ellalgo/ell.py:Ell"]}
{"id": "C27", "title": "cutting_plane_optim converges", "statement": "In exact arithmetic, if the set of points at least as good as gamma* contains a ball of radius r, within 2n(n+1)ln(R/r)+1 iterations cutting_plane_optim has found a gamma at least as good as gamma* (tolerance <= r^2, ||g||>=1).", "quantifier": "all problems, all correct oracles", "why_tests_cant": "A rate for every instance.", "anchors": ["src/ellalgo/cutting_plane.py:cutting_plane_optim"]}
{"id": "C28", "title": "Retry protocol of cutting_plane_optim_q", "statement": "The oracle is called with retry=True only if the immediately preceding update returned NoEffect (or a run of NoEffect/Unknown after such) and the oracle had announced more alternatives; after every Success the next call has retry=False; NoSoln, or NoEffect without alternatives, ends the search at once.", "quantifier": "every oracle, space, options", "why_tests_cant": "Arbitrary histories.", "anchors": ["src/ellalgo/cutting_plane.py:cutting_plane_optim_q"]}
{"id": "C29", "title": "cutting_plane_optim_q returns a consistent pair", "statement": "The returned gamma is the last reported one and x_best is the x_q reported with it; niter<=max_iters.", "quantifier": "every oracle, space, options", "why_tests_cant": "Arbitrary histories.", "anchors": ["src/ellalgo/cutting_plane.py:cutting_plane_optim_q"]}
{"id": "C30", "title": "Results do not alias the live search space", "statement": "With numpy's in-place update of the centre, the array returned as x_best by cutting_plane_optim is never overwritten by later updates of the space, whereas the array returned by cutting_plane_feas is the space's own centre array.", "quantifier": "all heaps, oracles and histories", "why_tests_cant": "Aliasing bugs only show for particular later mutations.", "anchors": ["src/ellalgo/cutting_plane.py:cutting_plane_optim", "src/ellalgo/cutting_plane.py:cutting_plane_feas", "src/ellalgo/ell.py:Ell.xc"]}
{"id": "C31", "title": "Constructing and running Ell does not modify the caller's arrays", "statement": "The array passed as x_center keeps its contents while the search runs.", "quantifier": "all histories", "why_tests_cant": "Needs a heap model of aliasing.", "anchors": ["src/ellalgo/ell.py:Ell.__init__", "src/ellalgo/ell.py:Ell._update_core"]}
{"id": "C32", "title": "bsearch brackets: every answer is certified", "statement": "The returned value is either the initial upper bound or a value for which the oracle answered True; the final lower bound is the initial one or a value answered False; the values stay ordered lower <= gamma <= upper inside the initial interval.", "quantifier": "every oracle (stateful, possibly non-monotone), every interval", "why_tests_cant": "Arbitrary oracles and interval sizes.", "anchors": ["src/ellalgo/cutting_plane.py:bsearch"]}
{"id": "C33", "title": "bsearch accuracy and cost", "statement": "In exact arithmetic with a monotone oracle of threshold t in [lower, upper], the result u satisfies t <= u and, unless max_iters is hit, u - t <= 2*tolerance; the interval after k steps is (upper-lower)/2^k, so it stops after at most the least k with (upper-lower)/2^(k+1) < tolerance.", "quantifier": "all thresholds, intervals, tolerances", "why_tests_cant": "A rate and a precision for every instance.", "anchors": ["src/ellalgo/cutting_plane.py:bsearch"]}
{"id": "C34", "title": "Integer bsearch finds the least feasible integer", "statement": "With integer bounds and a monotone oracle, after enough iterations the returned value is the least feasible integer in (lower, upper]; the number of iterations reported is then max_iters unless lower=upper (the tolerance test cannot fire).", "quantifier": "all integer intervals including negative ones, all thresholds", "why_tests_cant": "All intervals; truncation toward zero differs for negatives.", "anchors": ["src/ellalgo/cutting_plane.py:bsearch"]}
{"id": "C35", "title": "BSearchAdaptor isolates the main search space", "statement": "assess_bs never changes the main space's shape, kappa or tsq; it changes its centre only when it returns True, to a point the oracle accepted for that gamma.", "quantifier": "all oracles, spaces, gammas", "why_tests_cant": "Arbitrary histories.", "anchors": ["src/ellalgo/cutting_plane.py:BSearchAdaptor.assess_bs"]}
{"id": "C36", "title": "bsearch with BSearchAdaptor returns a certified pair", "statement": "After bsearch(BSearchAdaptor(...)), either no gamma was accepted (result = initial upper bound, centre unchanged) or x_best was accepted by the oracle at exactly the returned gamma.", "quantifier": "all oracles, spaces, intervals", "why_tests_cant": "Composition of two loops over arbitrary histories.", "anchors": ["src/ellalgo/cutting_plane.py:BSearchAdaptor", "src/ellalgo/cutting_plane.py:bsearch"]}
{"id": "C37", "title": "LDLTMgr.factor decides positive definiteness", "statement": "In exact arithmetic factor(get_elem) returns True iff the symmetric matrix whose lower triangle is get_elem is positive definite, whatever was factorised before with the same manager.", "quantifier": "all dimensions, all symmetric matrices, all prior states", "why_tests_cant": "The claim ranges over a continuum of real inputs (all dimensions, shape matrices, gradients and offsets); tests sample finitely many.", "anchors": ["src/ellalgo/oracles/ldlt_mgr.py:LDLTMgr.factor", "src/ellalgo/oracles/ldlt_mgr.py:LDLTMgr.is_spd"]}
{"id": "C38", "title": "LDLT factors reproduce the matrix", "statement": "After a successful factor, with L unit lower triangular from the stored off-diagonal entries and D the stored diagonal, L D L^T equals the matrix.", "quantifier": "all dimensions, all positive definite matrices", "why_tests_cant": "The claim ranges over a continuum of real inputs (all dimensions, shape matrices, gradients and offsets); tests sample finitely many.", "anchors": ["src/ellalgo/oracles/ldlt_mgr.py:LDLTMgr.factor"]}
{"id": "C39", "title": "The witness certifies failure", "statement": "After factor or factor_with_allow_semidefinite returns False, witness() returns ep with v^T A v = -ep for the stored vector v restricted to pos, v has a 1 at its last position, ep >= 0 (ep>0 for the semidefinite variant), and sym_quad(B) is v^T B v for every B.", "quantifier": "all dimensions, all symmetric matrices, all B, all prior states", "why_tests_cant": "The claim ranges over a continuum of real inputs (all dimensions, shape matrices, gradients and offsets); tests sample finitely many.", "anchors": ["src/ellalgo/oracles/ldlt_mgr.py:LDLTMgr.witness", "src/ellalgo/oracles/ldlt_mgr.py:LDLTMgr.sym_quad"]}
{"id": "C40", "title": "factor is lazy", "statement": "factor reads only lower-triangle entries (i,j) with j<=i, each at most once, and never an entry of a row after the failing one.", "quantifier": "all dimensions, all matrices", "why_tests_cant": "All inputs.", "anchors": ["src/ellalgo/oracles/ldlt_mgr.py:LDLTMgr.factor"]}
{"id": "C41", "title": "sqrt is a Cholesky factor", "statement": "After a successful factor, sqrt() returns an upper triangular R with positive diagonal and R^T R = A; on a failed factorisation it raises AssertionError.", "quantifier": "all dimensions, all positive definite matrices", "why_tests_cant": "The claim ranges over a continuum of real inputs (all dimensions, shape matrices, gradients and offsets); tests sample finitely many.", "anchors": ["src/ellalgo/oracles/ldlt_mgr.py:LDLTMgr.sqrt"]}
{"id": "C42", "title": "factor_with_allow_semidefinite decides positive semidefiniteness", "statement": "It returns True iff the matrix is positive semidefinite.", "quantifier": "all dimensions, all symmetric matrices", "why_tests_cant": "The claim ranges over a continuum of real inputs (all dimensions, shape matrices, gradients and offsets); tests sample finitely many.", "anchors": ["src/ellalgo/oracles/ldlt_mgr.py:LDLTMgr.factor_with_allow_semidefinite"]}
{"id": "C43", "title": "LMIOracle separates", "statement": "assess_feas(x) returns None iff B - sum x_k F_k is positive definite; otherwise it returns (g, ep) with ep>=0 and g^T(y-x)+ep <= 0 for every y whose LMI matrix is positive semidefinite.", "quantifier": "all matrices, all x, all feasible y, all prior manager states", "why_tests_cant": "The claim ranges over a continuum of real inputs (all dimensions, shape matrices, gradients and offsets); tests sample finitely many.", "anchors": ["src/ellalgo/oracles/lmi_oracle.py:LMIOracle.assess_feas"]}
{"id": "C44", "title": "LMI0Oracle separates", "statement": "Same as C43 for sum x_k F_k.", "quantifier": "all matrices, all x, all feasible y", "why_tests_cant": "The claim ranges over a continuum of real inputs (all dimensions, shape matrices, gradients and offsets); tests sample finitely many.", "anchors": ["src/ellalgo/oracles/lmi0_oracle.py:LMI0Oracle.assess_feas"]}
{"id": "C45", "title": "LMIOldOracle and LMIOracle agree", "statement": "For every x with as many entries as there are matrices both return the same result.", "quantifier": "all matrices, all x, all histories of calls", "why_tests_cant": "The claim ranges over a continuum of real inputs (all dimensions, shape matrices, gradients and offsets); tests sample finitely many.", "anchors": ["src/ellalgo/oracles/lmi_old_oracle.py:LMIOldOracle.assess_feas", "src/ellalgo/oracles/lmi_oracle.py:LMIOracle.assess_feas"]}
{"id": "C46", "title": "LMI feasibility end to end", "statement": "cutting_plane_feas(LMIOracle, Ell) returning x means B - sum x_k F_k is positive definite; stopping with NoSoln means no point of the initial ellipsoid satisfies the LMI.", "quantifier": "all LMIs, all ellipsoids, all options", "why_tests_cant": "Composition over arbitrary histories.", "anchors": ["src/ellalgo/oracles/lmi_oracle.py:LMIOracle", "src/ellalgo/cutting_plane.py:cutting_plane_feas"]}
{"id": "C47", "title": "LowpassOracle.assess_feas decides the sampled specification", "statement": "It returns None iff at every sampled frequency the response meets its band's bounds and x[0]>=0, independently of where the round-robin indices stand after any history of calls.", "quantifier": "all designs, all x, all call histories", "why_tests_cant": "Round-robin state makes outcomes history dependent.", "anchors": ["src/ellalgo/oracles/lowpass_oracle.py:LowpassOracle.assess_feas"]}
{"id": "C48", "title": "LowpassOracle cuts are violated here and valid everywhere feasible", "statement": "A returned cut (g, beta) has first offset > 0 at x, and every y meeting the specification satisfies g^T(y-x)+beta0 <= 0 (and >= -beta1 for pairs).", "quantifier": "all designs, x, y, histories", "why_tests_cant": "The claim ranges over a continuum of real inputs (all dimensions, shape matrices, gradients and offsets); tests sample finitely many.", "anchors": ["src/ellalgo/oracles/lowpass_oracle.py:LowpassOracle.assess_feas"]}
{"id": "C49", "title": "LowpassOracle.assess_optim reports the true stopband maximum", "statement": "When it reports gamma', the point is feasible for gamma, gamma' is the maximum stopband response and gamma' <= gamma, and the returned cut is valid for every design at least as good as gamma'.", "quantifier": "all designs with a nonempty stopband, all x, gamma, histories", "why_tests_cant": "The claim ranges over a continuum of real inputs (all dimensions, shape matrices, gradients and offsets); tests sample finitely many.", "anchors": ["src/ellalgo/oracles/lowpass_oracle.py:LowpassOracle.assess_optim"]}
{"id": "C50", "title": "ProfitOracle cuts are valid", "statement": "For gamma>=0 and positive input prices: a returned feasibility cut holds at every y with y1<=k and profit(y) >= gamma; when gamma' is reported, gamma' is the profit at x, gamma' >= gamma, x is feasible, and the cut holds at every feasible y with profit >= gamma'; for any round-robin state.", "quantifier": "all prices, elasticities, x, y, gamma>=0, histories", "why_tests_cant": "The claim ranges over a continuum of real inputs (all dimensions, shape matrices, gradients and offsets); tests sample finitely many.", "anchors": ["src/ellalgo/oracles/profit_oracle.py:ProfitOracle"]}
{"id": "C51", "title": "ProfitRbOracle is robust", "statement": "When it reports gamma', every scenario with elasticities, price, input prices and limit within the stated intervals gives profit >= gamma' at x and respects the limit; cuts hold at every y whose worst-case profit is at least gamma.", "quantifier": "all scenarios in the uncertainty box, all x, y, gamma>=0", "why_tests_cant": "The claim ranges over a continuum of real inputs (all dimensions, shape matrices, gradients and offsets); tests sample finitely many.", "anchors": ["src/ellalgo/oracles/profit_oracle.py:ProfitRbOracle"]}
{"id": "C52", "title": "ProfitQOracle returns integer designs", "statement": "Every x_q reported together with a gamma' has exp(x_q) a vector of positive integers, is feasible, and gamma' is its profit.", "quantifier": "all parameters, all xc, all histories", "why_tests_cant": "The claim ranges over a continuum of real inputs (all dimensions, shape matrices, gradients and offsets); tests sample finitely many.", "anchors": ["src/ellalgo/oracles/profit_oracle.py:ProfitQOracle"]}
{"id": "C53", "title": "ProfitQOracle cuts keep every better integer design", "statement": "Every feasible integer design with profit >= the current gamma satisfies the returned cut.", "quantifier": "all parameters, all xc, gamma>=0", "why_tests_cant": "The claim ranges over a continuum of real inputs (all dimensions, shape matrices, gradients and offsets); tests sample finitely many.", "anchors": ["src/ellalgo/oracles/profit_oracle.py:ProfitQOracle.assess_optim_q"]}
{"id": "C54", "title": "conjugate_gradient returns an accurate solution", "statement": "In exact arithmetic a returned x satisfies ||b - A x|| < tol, for any A for which it returns.", "quantifier": "all A, b, x0, tol, max_iter", "why_tests_cant": "The claim ranges over a continuum of real inputs (all dimensions, shape matrices, gradients and offsets); tests sample finitely many.", "anchors": ["src/ellalgo/conjugate_gradient.py:conjugate_gradient"]}
{"id": "C55", "title": "conjugate_gradient converges in n steps", "statement": "In exact arithmetic for symmetric positive definite A, tol>0, max_iter>=n and an inexact initial guess it returns (does not raise).", "quantifier": "all n, all SPD A, all b, x0", "why_tests_cant": "The claim ranges over a continuum of real inputs (all dimensions, shape matrices, gradients and offsets); tests sample finitely many.", "anchors": ["src/ellalgo/conjugate_gradient.py:conjugate_gradient"]}
{"id": "C56", "title": "conjugate_gradient accepts an exact initial guess", "statement": "If b = A x0 (for example b=0 with the default guess) it returns x0.", "quantifier": "all A, b", "why_tests_cant": "The claim ranges over a continuum of real inputs (all dimensions, shape matrices, gradients and offsets); tests sample finitely many.", "anchors": ["src/ellalgo/conjugate_gradient.py:conjugate_gradient"]}
{"id": "C57", "title": "inverse_spectral_fact is the autocorrelation", "statement": "inverse_spectral_fact(h)[t] = sum_i h[i]h[i+t]; its spectrum r0+2 sum r_t cos(t w) equals |sum h_k e^{-ikw}|^2, hence is >= 0 at every frequency.", "quantifier": "all lengths, all h, all w", "why_tests_cant": "The claim ranges over a continuum of real inputs (all dimensions, shape matrices, gradients and offsets); tests sample finitely many.", "anchors": ["src/ellalgo/oracles/spectral_fact.py:inverse_spectral_fact"]}
{"id": "C58", "title": "spectral_fact matches the power spectrum on the sample grid", "statement": "In exact arithmetic, if R(w)>0 on the oversampled grid, the returned h satisfies |DFT(h)[k]|^2 = R(2 pi k/n) for every k.", "quantifier": "all n>=1, all r with positive sampled spectrum", "why_tests_cant": "The claim ranges over a continuum of real inputs (all dimensions, shape matrices, gradients and offsets); tests sample finitely many.", "anchors": ["src/ellalgo/oracles/spectral_fact.py:spectral_fact"]}
{"id": "C59", "title": "fib", "statement": "fib(n) is the n-th Fibonacci number for n>=1 and raises AssertionError otherwise.", "quantifier": "all integers", "why_tests_cant": "Unbounded input.", "anchors": ["src/ellalgo/skeleton.py:fib"]}
{"id": "C60", "title": "Initial ellipsoids mean what the constructor says", "statement": "Ell(val, x0) with scalar val represents the ball of squared radius val around x0; with an array of positive values the axis-aligned ellipsoid sum (x_i-x0_i)^2/val_i <= 1; n=1 is rejected.", "quantifier": "all n, val, x0", "why_tests_cant": "The claim ranges over a continuum of real inputs (all dimensions, shape matrices, gradients and offsets); tests sample finitely many.", "anchors": ["src/ellalgo/ell.py:Ell.__init__", "src/ellalgo/ell_stable.py:EllStable.__init__"]}
{"id": "C61", "title": "The filter design loop reaches every interior level", "statement": "With LowpassOracle, Ell(R^2,x0) and an initial level whose feasible filters lie in the ball of radius R: for every target level whose feasible filters contain a ball of radius r, cutting_plane_optim meets a centre at least as good within 2n(n+1)ln(R/r) iterations, and what it then returns is a feasible filter with its exact largest stopband response, at most the target.", "quantifier": "all n, designs with a nonempty stopband, R, r, x0, histories of the oracle", "why_tests_cant": "The claim ranges over a continuum of real inputs (all dimensions, shape matrices, gradients and offsets); tests sample finitely many.", "anchors": ["src/ellalgo/oracles/lowpass_oracle.py:LowpassOracle", "src/ellalgo/cutting_plane.py:cutting_plane_optim"]}
{"id": "C62", "title": "create_lowpass_case is the design it documents", "statement": "create_lowpass_case(n) has band edges 0.12 pi and 0.2 pi, passband bounds 1.025^(-2) and 1.025^2 and initial stopband bound 0.125^2.", "quantifier": "all n", "why_tests_cant": "The bounds are produced by logarithms and powers.", "anchors": ["src/ellalgo/oracles/lowpass_oracle.py:create_lowpass_case"]}
{"id": "C63", "title": "What stopping on the tolerance means", "statement": "With cuts valid for F (resp. for the level sets) and a positive tolerance: if cutting_plane_feas gives up, or cutting_plane_optim returns gamma, before the iteration limit, then every point y of F (resp. of the level set of gamma) satisfies (g.(y-x))^2 < tolerance for the last centre x and the last cut g.", "quantifier": "all dimensions, oracles, ellipsoids, tolerances, runs", "why_tests_cant": "The claim ranges over a continuum of real inputs (all dimensions, shape matrices, gradients and offsets); tests sample finitely many.", "anchors": ["src/ellalgo/cutting_plane.py:cutting_plane_feas", "src/ellalgo/cutting_plane.py:cutting_plane_optim"]}
{"id": "C64", "title": "The profit loop returns designs with a proven optimality gap", "statement": "cutting_plane_optim with ProfitOracle and Ell returns (None, gamma0) or a design within the limit with its exact profit gamma >= gamma0; if it stops before the iteration limit then either no design within the limit has profit above gamma + (1-exp(-sqrt(tol)))*revenue, or every design at least as good uses more than exp(-sqrt(tol)) of the limit.", "quantifier": "all problems with positive data, ellipsoids containing the designs of level gamma0, gamma0>=0, options, histories", "why_tests_cant": "The claim ranges over a continuum of real inputs (all dimensions, shape matrices, gradients and offsets); tests sample finitely many.", "anchors": ["src/ellalgo/oracles/profit_oracle.py:ProfitOracle", "src/ellalgo/cutting_plane.py:cutting_plane_optim"]}
{"id": "C65", "title": "The profit loop raises only at a global optimum", "statement": "The only exception cutting_plane_optim can raise with ProfitOracle and Ell is the ValueError for a zero gradient; then no design reaches gamma0, or the current centre is a global optimum (which the exception hides from the caller).", "quantifier": "all problems with positive data, ellipsoids, gamma0>=0, options, histories", "why_tests_cant": "The claim ranges over a continuum of real inputs (all dimensions, shape matrices, gradients and offsets); tests sample finitely many.", "anchors": ["src/ellalgo/oracles/profit_oracle.py:ProfitOracle", "src/ellalgo/cutting_plane.py:cutting_plane_optim", "src/ellalgo/ell.py:Ell._update_core"]}
{"id": "C66", "title": "The robust and the discrete profit loop return what they claim", "statement": "cutting_plane_optim with ProfitRbOracle returns (None, gamma0) or a design whose profit is at least gamma in every scenario and whose input respects every scenario's limit; cutting_plane_optim_q with ProfitQOracle returns (None, gamma0) or an integer design within the limit with its exact profit.", "quantifier": "all problems, tolerances, search spaces, gamma0>=0, options, histories", "why_tests_cant": "The claim ranges over a continuum of real inputs (all dimensions, shape matrices, gradients and offsets); tests sample finitely many.", "anchors": ["src/ellalgo/oracles/profit_oracle.py:ProfitRbOracle", "src/ellalgo/oracles/profit_oracle.py:ProfitQOracle", "src/ellalgo/cutting_plane.py"]}
{"id": "C67", "title": "conjugate_gradient: functional specification", "statement": "For symmetric positive definite A, tol>0 and an inexact guess x0, the call returns x if and only if x is the minimiser of x'Ax-2b'x over x0+span{r0,Ar0,...,A^(k-1)r0} for the first k in 1..max_iter whose minimiser has residual norm < tol; it raises ValueError if and only if there is no such k.", "quantifier": "all n, SPD A, b, x0, tol, max_iter", "why_tests_cant": "The claim ranges over a continuum of real inputs (all dimensions, shape matrices, gradients and offsets); tests sample finitely many.", "anchors": ["src/ellalgo/conjugate_gradient.py:conjugate_gradient"]}
{"id": "C68", "title": "Round trip through spectral_fact and inverse_spectral_fact", "statement": "For r with positive sampled spectrum, r' = inverse_spectral_fact(spectral_fact(r)) has r'[0]=r[0] and r'[t]+r'[n-t] = r[t]+r[n-t] for 0<t<n.", "quantifier": "all n, all r with positive sampled spectrum", "why_tests_cant": "The claim ranges over a continuum of real inputs (all dimensions, shape matrices, gradients and offsets); tests sample finitely many.", "anchors": ["src/ellalgo/oracles/spectral_fact.py"]}
{"id": "C69", "title": "spectral_fact accepts a column vector, as its docstring asks", "statement": "Passed as a column vector (shape (n,1)), coefficients with positive spectrum give an impulse response with the desired power spectrum.", "quantifier": "all n, all r", "why_tests_cant": "The claim ranges over a continuum of real inputs (all dimensions, shape matrices, gradients and offsets); tests sample finitely many.", "anchors": ["src/ellalgo/oracles/spectral_fact.py:spectral_fact"]}
{"id": "C70", "title": "spectral_fact computes the minimum phase", "statement": "For r with positive sampled spectrum there is a real polynomial P of degree at most 50n with |exp P(e^{-iw})|^2 = R(w) at all 100n oversampled frequencies, and the DFT of the result is exp P(e^{-iw}) at the n frequencies 2 pi k/n.", "quantifier": "all n, all r with positive sampled spectrum", "why_tests_cant": "The claim ranges over a continuum of real inputs (all dimensions, shape matrices, gradients and offsets); tests sample finitely many.", "anchors": ["src/ellalgo/oracles/spectral_fact.py:spectral_fact"]}
{"id": "C71", "title": "Each update returns the smallest ellipsoid there is", "statement": "If update_bias_cut or update_central_cut succeeds, or update_q answers Success or NoEffect, then the ellipsoid of the object afterwards has the smallest volume (determinant of kappa*M) among all ellipsoids containing the part of the old ellipsoid that the cut keeps, and no other ellipsoid has that volume (first offset >= 0 for update_bias_cut, >= -tau for update_q).", "quantifier": "all n>=2, ellipsoids, single and parallel cuts, competing ellipsoids of any shape and centre", "why_tests_cant": "The claim ranges over a continuum of real inputs (all dimensions, shape matrices, gradients and offsets); tests sample finitely many.", "anchors": ["src/ellalgo/ell.py:Ell._update_core", "src/ellalgo/ell_calc.py:EllCalc", "src/ellalgo/ell_calc_core.py:EllCalcCore"]}
{"id": "C72", "title": "The determinant is the Lebesgue volume", "statement": "The Lebesgue volume of the search space is sqrt(det(kappa*M)) times that of the unit ball; a successful deep or central cut multiplies it by at most exp(-1/(2(n+1))); the updated search space has the smallest Lebesgue volume among all ellipsoids containing what the cut keeps, and is the only such ellipsoid.", "quantifier": "all n>=2, ellipsoids, cuts", "why_tests_cant": "The claim ranges over a continuum of real inputs (all dimensions, shape matrices, gradients and offsets); tests sample finitely many.", "anchors": ["src/ellalgo/ell.py:Ell._update_core", "src/ellalgo/ell_calc.py:EllCalc"]}
{"id": "C73", "title": "Iteration bounds in terms of volume, for gradients of any length", "statement": "If F has positive Lebesgue volume and lies in the initial ellipsoid E and the oracle answers well-formed valid cuts with nonzero gradients, cutting_plane_feas completes at most 2(n+1) ln(vol E/vol F) iterations, and with a larger max_iters it returns a point of F or has stopped on the tolerance; cutting_plane_optim completes at most 2(n+1) ln(vol E/vol L(gamma*)) iterations while its best value is below gamma*, and with tolerance <= 0 and a larger max_iters what it returns is at least as good as gamma*.", "quantifier": "all n, oracles, sets of positive volume, histories", "why_tests_cant": "The claim ranges over a continuum of real inputs (all dimensions, shape matrices, gradients and offsets); tests sample finitely many.", "anchors": ["src/ellalgo/cutting_plane.py:cutting_plane_feas", "src/ellalgo/cutting_plane.py:cutting_plane_optim", "src/ellalgo/ell.py:Ell"]}
{"id": "C74", "title": "Every cutting-plane loop gives the same outcome with EllStable as with Ell", "statement": "cutting_plane_feas, cutting_plane_optim and cutting_plane_optim_q, run with the same oracle and options from the same ellipsoid, return the same result and iteration count (or raise the same exception) and leave the oracle in the same state with EllStable as with Ell, for oracles with nonzero gradients and nonnegative first offsets in parallel cuts; the only exception is that EllStable raises ZeroDivisionError at a cut at which the search space of Ell degenerates to a flat set.", "quantifier": "all n, initial ellipsoids, stateful oracles, options, histories", "why_tests_cant": "The claim ranges over a continuum of real inputs (all dimensions, shape matrices, gradients and offsets); tests sample finitely many.", "anchors": ["src/ellalgo/ell_stable.py:EllStable", "src/ellalgo/ell.py:Ell", "src/ellalgo/cutting_plane.py"]}
{"id": "C75", "title": "Verdicts and convergence of the loops with EllStable", "statement": "With EllStable: the feasible set (the level set of the best value) stays inside the ellipsoid of the factors; NoSoln proves it empty; a run that gives up although it is not empty hit the iteration limit or the tolerance; a returned point is feasible; and if the set has positive volume, max_iters > 2(n+1) ln(vol E/vol F) and tolerance <= 0, cutting_plane_feas returns a point of it without raising, and what cutting_plane_optim returns is at least as good as gamma*.", "quantifier": "all n, initial ellipsoids, stateful oracles, sets, options, histories", "why_tests_cant": "The claim ranges over a continuum of real inputs (all dimensions, shape matrices, gradients and offsets); tests sample finitely many.", "anchors": ["src/ellalgo/ell_stable.py:EllStable", "src/ellalgo/cutting_plane.py:cutting_plane_feas", "src/ellalgo/cutting_plane.py:cutting_plane_optim"]}
{"id": "C76", "title": "Exactly which matrices factor_with_allow_semidefinite accepts", "statement": "factor_with_allow_semidefinite answers True exactly if the matrix decomposes from the top left into diagonal blocks that are positive definite on their own, each followed by a zero Schur-complement corner at which the method restarts with the trailing submatrix of the original matrix; in particular a matrix with a zero in the top left corner is accepted exactly if its trailing submatrix is, whatever stands in the first row.", "quantifier": "all matrix sizes and matrices", "why_tests_cant": "The claim ranges over a continuum of real inputs (all dimensions, shape matrices, gradients and offsets); tests sample finitely many.", "anchors": ["src/ellalgo/oracles/ldlt_mgr.py:LDLTMgr.factor_with_allow_semidefinite"]}
{"id": "C77", "title": "Accuracy of cutting_plane_optim on convex problems", "statement": "Minimising a convex f over {c <= 0} (c convex) with an oracle that answers subgradient cuts, cutting_plane_optim with max_iters > 2(n+1)(n ln(1/eps) + ln(vol E/vol A)) and tolerance <= 0 returns a value f(x) <= f* + eps*(M - f*), where A is the feasible part of the initial ellipsoid E and M bounds f on A, or raises after having been given such a value by the oracle.", "quantifier": "all n>=2, convex f and c, stateful subgradient oracles, ellipsoids, 0<eps<=1, histories", "why_tests_cant": "The claim ranges over a continuum of real inputs (all dimensions, shape matrices, gradients and offsets); tests sample finitely many.", "anchors": ["src/ellalgo/cutting_plane.py:cutting_plane_optim", "src/ellalgo/ell.py:Ell", "src/ellalgo/ell_calc.py:EllCalc"]}
{"id": "C78", "title": "cutting_plane_feas solves strictly feasible linear matrix inequalities", "statement": "If some y0 in the initial ellipsoid has B - sum y0_k F_k >= mu I (mu>0) and the matrix is >= -Lambda I on the ellipsoid, cutting_plane_feas with LMIOracle (likewise LMI0Oracle) and Ell does not raise, completes at most 2q(q+1) ln((mu+Lambda)/mu) iterations and returns a point at which the matrix is positive definite, unless tsq fell below the tolerance, which cannot happen if the tolerance is at most mu^2.", "quantifier": "all numbers q>=2 of variables, matrix sizes, symmetric matrices, ellipsoids, options", "why_tests_cant": "The claim ranges over a continuum of real inputs (all dimensions, shape matrices, gradients and offsets); tests sample finitely many.", "anchors": ["src/ellalgo/oracles/lmi_oracle.py:LMIOracle", "src/ellalgo/oracles/lmi0_oracle.py:LMI0Oracle", "src/ellalgo/oracles/ldlt_mgr.py:LDLTMgr", "src/ellalgo/cutting_plane.py:cutting_plane_feas"]}
{"id": "C79", "title": "A cut that keeps less leaves no larger search space", "statement": "If two calls of update_bias_cut, update_central_cut or update_q on the same ellipsoid both succeed and what the second cut keeps of the ellipsoid is also kept by the first, the second leaves a search space of at most the volume of the first: a deeper cut never leaves more than a shallower one, a parallel cut never more than its first cut alone (and a closer second plane never more than a farther one), and a deep cut never more than the central cut with the same gradient.", "quantifier": "all n>=2, ellipsoids, pairs of cuts", "why_tests_cant": "The claim ranges over a continuum of real inputs (all dimensions, shape matrices, gradients and offsets); tests sample finitely many.", "anchors": ["src/ellalgo/ell.py:Ell", "src/ellalgo/ell_calc.py:EllCalc", "src/ellalgo/ell_calc_core.py:EllCalcCore"]}
{"id": "C80", "title": "Everything commutes with affine changes of coordinates", "statement": "Running any update, cutting_plane_feas, cutting_plane_optim, cutting_plane_optim_q or bsearch over BSearchAdaptor in coordinates y = Tx + b (T invertible, with matrix T M T^t, gradients T^-t g and the oracle transported) gives exactly the transported outcome: the same statuses, iteration counts, tsq values, exceptions and oracle states, with points and ellipsoids mapped by x -> Tx + b.", "quantifier": "all n, invertible T, b, ellipsoids, stateful oracles, options", "why_tests_cant": "The claim ranges over a continuum of real inputs (all dimensions, shape matrices, gradients and offsets); tests sample finitely many.", "anchors": ["src/ellalgo/ell.py:Ell", "src/ellalgo/cutting_plane.py"]}
{"id": "C81", "title": "bsearch over BSearchAdaptor finds the smallest feasible value", "statement": "For a feasibility oracle parametrised by gamma whose feasible sets grow with gamma, bsearch with BSearchAdaptor and an initial ellipsoid in which the set for gamma* has positive volume returns an upper end at most gamma* plus twice the tolerance.", "quantifier": "all n, parametrised oracles, ellipsoids, intervals, options", "why_tests_cant": "The claim ranges over a continuum of real inputs (all dimensions, shape matrices, gradients and offsets); tests sample finitely many.", "anchors": ["src/ellalgo/cutting_plane.py:BSearchAdaptor", "src/ellalgo/cutting_plane.py:bsearch", "src/ellalgo/ell.py:Ell.set_xc"]}
{"id": "C82", "title": "Verdicts of cutting_plane_optim_q are sound", "statement": "With an oracle whose cuts keep every design better than the best value so far (also when it is asked for an alternative cut), cutting_plane_optim_q with Ell never loses a better design; if it stops because an update returned NoSoln, no design of the initial ellipsoid is better than the value returned, so over a discrete set the returned x_q is a global optimum; and if it stops although better designs exist, it hit the iteration limit, the tolerance, or NoEffect with no alternative cut left.", "quantifier": "all n, initial ellipsoids, stateful oracles, sets of designs (discrete or not), options, histories with retries", "why_tests_cant": "The claim ranges over a continuum of real inputs (all dimensions, shape matrices, gradients and offsets); tests sample finitely many.", "anchors": ["src/ellalgo/cutting_plane.py:cutting_plane_optim_q", "src/ellalgo/ell.py:Ell.update_q"]}
{"id": "C83", "title": "The one-dimensional search space is exact", "statement": "ell1d(l, u) represents [l, u]; a cut with nonzero gradient leaves exactly the part of the interval that the cut keeps on Success, an unchanged interval of which the cut removes nothing on NoEffect, and NoSoln exactly if the cut keeps nothing; no update raises; after any history the interval is the intersection of the initial interval with all cuts; a central or deep cut at least halves it. A zero gradient with zero bias is the exception: it halves the interval although it cuts nothing.", "quantifier": "all intervals, cuts, histories", "why_tests_cant": "The claim ranges over a continuum of real inputs (all dimensions, shape matrices, gradients and offsets); tests sample finitely many.", "anchors": ["src/ellalgo/ell1d.tpy:ell1d"]}
{"id": "C84", "title": "Two-sided and lower-bound linear matrix inequality oracles", "statement": "lmi2_oracle accepts x exactly if F(x) and U - F(x) are both positive definite, and otherwise returns a parallel cut with nonnegative first bias between whose planes every y with 0 <= F(y) <= U lies; with cutting_plane_feas its verdicts are sound. lmi3_oracle(F, B) behaves call for call like LMIOracle(-F, -B) and accepts x exactly if F(x) - B is positive definite.", "quantifier": "all matrix sizes, numbers of variables, symmetric matrices, points, previous states of the factorisation manager", "why_tests_cant": "The claim ranges over a continuum of real inputs (all dimensions, shape matrices, gradients and offsets); tests sample finitely many.", "anchors": ["src/ellalgo/oracles/lmi2_oracle.tpy", "src/ellalgo/oracles/lmi3_oracle.tpy", "src/ellalgo/oracles/ldlt_mgr.py:LDLTMgr"]}
{"id": "C85", "title": "What the power iterations compute", "statement": "Each of the four power iterations stops in the first pass k that meets its criterion and returns the unit vector in direction A^(k+1) x, its Rayleigh quotient and k; if no pass of max_iters does, the unit vector in direction A^max_iters x, its Rayleigh quotient and max_iters; it divides by zero exactly if it meets A^j x = 0. power_iteration3, which normalises only when the squared length reaches 1e150, gives the same as power_iteration2. What the caller's array holds afterwards is determined (the returned vector in variants 2 and 3, the normalised start vector in 1 and 4).", "quantifier": "all n, square matrices, start vectors, options", "why_tests_cant": "The claim ranges over a continuum of real inputs (all dimensions, shape matrices, gradients and offsets); tests sample finitely many.", "anchors": ["experiment/power_iteration.py:power_iteration", "experiment/power_iteration.py:power_iteration2", "experiment/power_iteration.py:power_iteration3", "experiment/power_iteration.py:power_iteration4"]}
{"id": "C86", "title": "A converged power iteration has found an approximate eigenpair", "statement": "The returned vector has length one and the returned value is its Rayleigh quotient. If fewer than max_iters passes are reported: power_iteration returns ||Ax - ld x|| <= L tol (L a bound of the norm of A; any square A) and, for symmetric A, a value within L tol of an eigenvalue; power_iteration4 the same with a factor sqrt(n); power_iteration2 and 3, for positive semidefinite A, a value within sqrt(ld tol) + tol of an eigenvalue.", "quantifier": "all n, matrices, start vectors, options", "why_tests_cant": "The claim ranges over a continuum of real inputs (all dimensions, shape matrices, gradients and offsets); tests sample finitely many.", "anchors": ["experiment/power_iteration.py"]}
{"id": "C87", "title": "Power iteration on positive semidefinite matrices", "statement": "On a symmetric positive semidefinite A with Ax != 0 no variant raises; the values lie between the Rayleigh quotient ld0 of x and the largest eigenvalue and grow with the number of passes; variants 2 and 3 meet their criterion if max_iters*tol > lmax - ld0, variant 1 if max_iters*tol^2 >= n ln(lmax/ld0), variant 4 if max_iters*tol^2 >= 4 n ln(lmax/ld0); after K multiplications the value is at least lmax*cos^2(theta)^(1/(2K+1)), theta the angle between x and an eigenvector, so a run not stopped by the tolerance finds the largest eigenvalue to any accuracy.", "quantifier": "all n, positive semidefinite matrices (no gap assumption), start vectors, options", "why_tests_cant": "The claim ranges over a continuum of real inputs (all dimensions, shape matrices, gradients and offsets); tests sample finitely many.", "anchors": ["experiment/power_iteration.py"]}
{"id": "C88", "title": "A converged power iteration has found the largest eigenvalue", "statement": "If a power iteration reports fewer than max_iters passes and the start vector has a component along the dominant eigenvector, the returned value is the largest eigenvalue up to an error that goes to zero with the tolerance.", "quantifier": "all n, symmetric matrices, start vectors, options", "why_tests_cant": "The claim ranges over a continuum of real inputs (all dimensions, shape matrices, gradients and offsets); tests sample finitely many.", "anchors": ["experiment/power_iteration.py"]}
{"id": "C89", "title": "The two versions of EllCalc agree", "statement": "The template ell_calc.tpy and the shipped ell_calc.py return the same status and parameters for every cut with n >= 2 and tsq > 0, except for these pairs: beta0+beta1 = 0 (beta1 = 0 for central cuts), where the template divides by zero; beta0 < 0 with the second plane touching the ellipsoid in update_bias_cut, where the shipped file raises AssertionError; n beta0 beta1 = -tsq in update_q, where the template reports Success with parameters that change nothing and the shipped file NoEffect.", "quantifier": "all n >= 2, cut offsets, tsq > 0", "why_tests_cant": "The claim ranges over a continuum of real inputs (all dimensions, shape matrices, gradients and offsets); tests sample finitely many.", "anchors": ["src/ellalgo/ell_calc.tpy:EllCalc", "src/ellalgo/ell_calc.py:EllCalc"]}
{"id": "C90", "title": "What does not depend on exact arithmetic", "statement": "Take any machine arithmetic at all: any rounding function after every operation, any inner product and any matrix-vector product. Then along every history of update_bias_cut, update_central_cut and update_q the shape matrix of an Ell stays exactly symmetric and its settings stay as they are, and an update that does not report Success (failed cut, exception) leaves centre, shape matrix and scale untouched. With exact arithmetic the rounded model of Ell and LDLTMgr.factor is the exact one.", "quantifier": "all arithmetics, states, histories, cuts", "why_tests_cant": "The claim ranges over a continuum of real inputs (all dimensions, shape matrices, gradients and offsets); tests sample finitely many.", "anchors": ["src/ellalgo/ell.py:Ell", "src/ellalgo/ell_calc.py:EllCalc", "src/ellalgo/ell_calc_core.py:EllCalcCore", "src/ellalgo/oracles/ldlt_mgr.py:LDLTMgr.factor"]}
{"id": "C91", "title": "A floating-point cut keeps every point up to an explicit inflation, and some inflation is needed", "statement": "In a machine arithmetic whose operations have relative error u and whose inner products have relative error gamma, let m and L bound the quadratic form mq from below and above, let eps = gamma sqrt(n) L/m and let xi = u |xc| / sqrt(kappa m). Call update_bias_cut, update_central_cut or update_q with a nonzero gradient and a single offset beta with 0 <= beta <= (1-a) tau, 0 < a <= 1 (0 for the central cut), where eps <= a/2000 and xi <= a/1000. Then Success is reported, the new shape matrix is positive definite, and every point of the old ellipsoid that satisfies the cut lies in the new ellipsoid with kappa multiplied by 1 + (500 eps + 4 xi)/a. Without the factor this is false in binary floating point with any number of bits: a central cut at the unit disc loses a point.", "quantifier": "all arithmetics, dimensions, states, gradients, offsets, points", "why_tests_cant": "The claim ranges over a continuum of real inputs (all dimensions, shape matrices, gradients and offsets); tests sample finitely many.", "anchors": ["src/ellalgo/ell.py:Ell.update_bias_cut", "src/ellalgo/ell.py:Ell.update_central_cut", "src/ellalgo/ell.py:Ell.update_q"]}
{"id": "C92", "title": "The LDLT test and its witness in floating point: right up to an explicit tolerance, and no better", "statement": "In a machine arithmetic whose operations have relative error u and whose inner products have relative error gamma >= u, let A be the symmetric matrix of order n given by its lower triangle a. If factor accepts then v'Av >= -4 n gamma sum a_ii v_i^2 for every v. If factor rejects and 10 n gamma <= 1 then witness returns some ep >= 0 and stores a vector v with last active entry 1 such that v'Av <= 7 n gamma sum a_ii v_i^2 over the failed block and |v'Av + ep| <= 9 n gamma (sum |a_ii| v_i^2 + ep). So factor accepts whenever v'Av > 7 n gamma sum a_ii v_i^2 for every nonzero v. In double precision neither direction is exact: there is a positive definite matrix of order 2 that is rejected and a matrix of order 3 that is not positive semidefinite and is accepted.", "quantifier": "all arithmetics, orders, matrices, vectors, prior manager states", "why_tests_cant": "The claim ranges over a continuum of real inputs (all dimensions, shape matrices, gradients and offsets); tests sample finitely many.", "anchors": ["src/ellalgo/oracles/ldlt_mgr.py:LDLTMgr.factor", "src/ellalgo/oracles/ldlt_mgr.py:LDLTMgr.witness"]}
{"id": "C93", "title": "The LMI oracles in floating point: answers are right up to an explicit tolerance, and a tolerance is needed", "statement": "In a machine arithmetic whose operations have relative error u and whose inner products have relative error gamma >= (1+u)^(q+1)-1, for symmetric B, F_k of order m with 10 m gamma <= 1, LMIOracle.assess_feas(x) and LMIOldOracle.assess_feas(x) never raise. With W_M(v) = sum |v_i||M_ij||v_j|: if they return None then v'(B - sum x_k F_k)v >= -7 m gamma (W_B(v) + sum |x_k| W_Fk(v)) for every v. If they return (g, ep) then ep >= 0 and there is a v with some entry 1 such that v'(B - sum x_k F_k)v <= 11 m gamma (W_B(v) + sum |x_k| W_Fk(v)), |g_k - v'F_k v| <= 2.1 gamma W_Fk(v), and g.(z - x) + ep + v'(B - sum z_k F_k)v <= 13 m gamma (W_B(v) + sum (|x_k| + |z_k - x_k|) W_Fk(v) + ep) for every z; the last term on the left is >= 0 if z is feasible. The same holds for LMI0Oracle. In double precision a cut may exclude feasible points: there are a feasible x that is rejected and a feasible z with g.(z - x) + ep > 0.", "quantifier": "all arithmetics, orders, numbers of matrices, symmetric matrices, points, prior manager states", "why_tests_cant": "The claim ranges over a continuum of real inputs (all dimensions, shape matrices, gradients and offsets); tests sample finitely many.", "anchors": ["src/ellalgo/oracles/lmi_oracle.py:LMIOracle.assess_feas", "src/ellalgo/oracles/lmi0_oracle.py:LMI0Oracle.assess_feas", "src/ellalgo/oracles/lmi_old_oracle.py:LMIOldOracle.assess_feas"]}
{"id": "C94", "title": "Whole runs in floating point: no failure, no lost solution beyond an explicit stretching, and NoSoln is trustworthy up to it", "statement": "In a machine arithmetic with relative error u and inner products with relative error gamma >= u, take an Ell of dimension n >= 2 and any list of K calls of update_bias_cut, update_central_cut and update_q with scalar offsets whose (effective) offsets satisfy 0 <= beta <= (1-a) tau in the state in which they are made. If every such state has gamma sqrt(n) cond(mq) <= eps <= a/2000 and u |xc| / (smallest semi-axis) <= xi <= a/1000, then every call reports Success, the shape stays positive definite, kappa stays positive, and every point of the first ellipsoid that satisfies every cut up to s tau lies in the last ellipsoid with its semi-axes stretched by 1 + (c + b s)(1 + b + ... + b^(K-1)), c = (250 eps + 2 xi)/a, b = (1+c)(n+1)/(n a). It is enough that the first ellipsoid and K satisfy gamma sqrt(n) cond (5/4 (n+1)(2-a)/((n-1)a))^K <= eps and u (|xc| + 5((5/4)^K - 1) longest semi-axis) <= xi (a/sqrt 3)^K smallest semi-axis. If the next call reports NoSoln in a well-conditioned state, no such point satisfies its cut with a margin of more than (stretching - 1 + 6 eps) tau. Example: ten central cuts in double precision from the unit disc, any gradients, stretching below 1.00001.", "quantifier": "all arithmetics, dimensions, ellipsoids, histories of single cuts and points", "why_tests_cant": "The claim ranges over a continuum of real inputs (all dimensions, shape matrices, gradients and offsets); tests sample finitely many.", "anchors": ["src/ellalgo/ell.py:Ell._update_core", "src/ellalgo/ell_calc.py:EllCalc.calc_bias_cut", "src/ellalgo/ell_calc.py:EllCalc.calc_bias_cut_q", "src/ellalgo/ell_calc_core.py:EllCalcCore.calc_bias_cut_fast", "src/ellalgo/ell_calc_core.py:EllCalcCore.calc_central_cut"]}
{"id": "C95", "title": "EllStable in floating point never loses positive definiteness, however ill-conditioned; Ell can", "statement": "In every machine arithmetic whose operations have relative error u < 1, whatever the gradient (not zero), the factors and their condition: if the computed parameters have sigma >= 0, 1 - sigma > 0 and delta > 0, a call of EllStable.update_bias_cut, update_central_cut or update_q (single or parallel offsets, no_defer_trick on or off) never divides by zero, keeps every diagonal entry of mq and kappa positive, so that the factors are always those of a positive definite matrix, sets tsq > 0, and returns what the cut strategy says. Hence in any history of cuts with scalar offsets 0 <= beta <= (1-a) sqrt(tsq) with 2000 u <= a, in particular in any history of central cuts, every call returns Success and the factors stay positive definite; no condition on conditioning is needed, in contrast to C94. With exact arithmetic the model is the exact EllStable. The margin is needed: in double precision, from the disc with kappa = 2, one deep cut along (1,1) with the largest double below sqrt(tsq) = 2 gives sigma = 1, after which Ell reports Success and holds a matrix that is not positive definite, and EllStable raises ZeroDivisionError; in exact arithmetic the cut is harmless.", "quantifier": "all arithmetics, dimensions, factorisations, gradients and histories", "why_tests_cant": "The claim ranges over a continuum of real inputs (all dimensions, shape matrices, gradients and offsets); tests sample finitely many.", "anchors": ["src/ellalgo/ell_stable.py:EllStable._update_core", "src/ellalgo/ell_stable.py:EllStable.update_bias_cut", "src/ellalgo/ell_stable.py:EllStable.update_central_cut", "src/ellalgo/ell_stable.py:EllStable.update_q", "src/ellalgo/ell.py:Ell._update_core"]}
{"id": "C96", "title": "The text of ell_calc_core.py and ell_calc.py computes the parameters that the model computes", "statement": "Take the source text of ell_calc_core.py and ell_calc.py, parsed and run by an evaluator for Python that does not know them, in any machine arithmetic that represents 0, 1/2, 1 and 2. On every heap with an EllCalcCore or EllCalc object and for all arguments (offsets given as float, tuple, list or array, of any length, with or without None), every method returns exactly the tuple, or raises exactly the exception, that the model of Model/Rounded gives, and leaves the heap alone; the constructors build the objects that the model builds, or raise ZeroDivisionError or AssertionError exactly when it says so. The four older formula variants of EllCalcCore agree with the exact model in exact arithmetic.", "quantifier": "all arithmetics, heaps, objects, offsets and numbers", "why_tests_cant": "The claim ranges over a continuum of real inputs (all dimensions, shape matrices, gradients and offsets); tests sample finitely many.", "anchors": ["src/ellalgo/ell_calc_core.py:EllCalcCore", "src/ellalgo/ell_calc.py:EllCalc"]}
{"id": "C97", "title": "The text of ell.py: histories of calls on a heap are those of the model, and lose no solution", "statement": "Take the source text of ell.py, ell_calc.py and ell_calc_core.py, run by the evaluator of C96 on a heap with shared arrays. Ell(val, x) for a float, an integer, a list or an array val builds the ellipsoid of the model around the caller's array; xc() returns that array itself, set_xc keeps the array given, tsq() the number. In any arithmetic with the literals of the text, along every history of calls of update_bias_cut, update_central_cut and update_q (single and parallel offsets, exceptions caught) every status and exception is that of the model, the object on the heap is that of the model, and nothing else on the heap changes but the object, its matrix and its centre. Hence, in exact arithmetic, from positive val any history of strict cuts leaves a positive definite matrix on the heap, and a deep cut that returns CutStatus.Success loses no point that satisfies the cut.", "quantifier": "all arithmetics, dimensions, heaps, objects and histories", "why_tests_cant": "The claim ranges over a continuum of real inputs (all dimensions, shape matrices, gradients and offsets); tests sample finitely many.", "anchors": ["src/ellalgo/ell.py:Ell.__init__", "src/ellalgo/ell.py:Ell._update_core", "src/ellalgo/ell.py:Ell.update_bias_cut", "src/ellalgo/ell.py:Ell.update_central_cut", "src/ellalgo/ell.py:Ell.update_q", "src/ellalgo/ell.py:Ell.set_xc", "src/ellalgo/ell.py:Ell.xc"]}
{"id": "C98", "title": "The text of cutting_plane.py: runs on a heap are those of the model, find what they promise and touch nothing else", "statement": "Take the source text of cutting_plane.py, ell.py, ell_calc.py, ell_calc_core.py and ell_config.py, run by the evaluator of C96 on a heap with shared arrays, and an oracle object that answers in new arrays and does not write to the library's objects. In any arithmetic with the literals of the text, cutting_plane_feas, cutting_plane_optim, cutting_plane_optim_q on an Ell, and bsearch over BSearchAdaptor (floats or integers, deepcopy of the space included), return or raise exactly what the model says, from every state. cutting_plane_feas returns the live centre array of the space; cutting_plane_optim(_q) return None or an array that did not exist before; bsearch leaves the caller's centre array alone and rebinds the centre of the space, which x_best then shows. Of what was on the heap before, nothing else changes but the space's own object, matrix and centre and what belongs to the oracle. Left-out options mean 2000 iterations and tolerance 1e-20. Hence, in exact arithmetic and from the text alone: Ell(R**2, x) followed by cutting_plane_feas finds a point of any set between balls of radius r and R within 2n(n+1)ln(R/r) iterations, an array it returns is always a feasible point, and cutting_plane_optim on a convex problem reaches relative accuracy eps. For every oracle of the model there is a user's object that meets the contract.", "quantifier": "all arithmetics, dimensions, heaps, oracles and their states, options, intervals", "why_tests_cant": "The claim ranges over a continuum of real inputs (all dimensions, shape matrices, gradients and offsets); tests sample finitely many.", "anchors": ["src/ellalgo/cutting_plane.py:cutting_plane_feas", "src/ellalgo/cutting_plane.py:cutting_plane_optim", "src/ellalgo/cutting_plane.py:cutting_plane_optim_q", "src/ellalgo/cutting_plane.py:bsearch", "src/ellalgo/cutting_plane.py:BSearchAdaptor"]}
{"id": "C99", "title": "The text of ldlt_mgr.py decides positive definiteness and certifies the answer", "statement": "Take the source text of ldlt_mgr.py, run by the evaluator of C96 on a heap. In any arithmetic with the literals of the text, LDLTMgr(n), factor, factor_with_allow_semidefinite, factorize, is_spd, witness, sym_quad and sqrt compute from every state what the model says; factor writes only to the object and its storage array, witness only to its wit array, sym_quad and sqrt to nothing that was there. In exact arithmetic factorize(mat) of a symmetric array returns True iff it is positive definite; then sqrt() returns a new array R, upper triangular with positive diagonal and R^T R = mat, and witness() raises AssertionError; if it returned False, witness() returns ep >= 0, there is v != 0 with v^T mat v = -ep, sym_quad(B) returns v^T B v for every array B, and sqrt() raises AssertionError. A get_elem of the caller is called once for each entry of the lower triangle, row by row, and not beyond the row in which the factorization stops. factor_with_allow_semidefinite returns True for positive semidefinite matrices and otherwise witness() certifies a negative direction. In floating point an accepted matrix satisfies v^T mat v >= -4 n gamma sum mat_ii v_i^2 and a rejected one v^T mat v <= 7 n gamma sum mat_ii v_i^2 for some v != 0.", "quantifier": "all arithmetics, dimensions, heaps, matrices, functions get_elem and what they record", "why_tests_cant": "The claim ranges over a continuum of real inputs (all dimensions, shape matrices, gradients and offsets); tests sample finitely many.", "anchors": ["src/ellalgo/oracles/ldlt_mgr.py:LDLTMgr"]}
{"id": "C100", "title": "The text of the LMI oracles with Ell and cutting_plane_feas solves linear matrix inequalities", "statement": "Take the source text of lmi_oracle.py, lmi0_oracle.py, lmi_old_oracle.py, ldlt_mgr.py, ell.py, ell_calc.py, ell_calc_core.py and cutting_plane.py, run by the evaluator of C96 on a heap, with no code of the user. In exact arithmetic, after LMIOracle(mat_f, mat_b) (or LMIOldOracle, or LMI0Oracle(mat_f)) and Ell(R^2, x) with at least two variables, what cutting_plane_feas returns is None or the centre array with a point at which mat_b - sum y_k mat_f[k] (for LMI0Oracle: sum y_k mat_f[k]) is positive definite. If some y0 in the ball has the matrix >= mu I, mu > 0, the matrix is >= -Lambda I on the ball, the tolerance is at most mu^2 and max_iters > N = 2q(q+1) ln((mu+Lambda)/mu), it does return such a point, after at most N iterations; N and the tolerance do not depend on the heap. LMI0Oracle of an empty list raises IndexError. In floating point every call of assess_feas returns without raising, None only if the inequality holds up to 7 m gamma (|B| + sum |x_k| |F_k|), and otherwise a cut valid up to such a tolerance; it changes only the LDLTMgr.", "quantifier": "all numbers of variables and matrix sizes, symmetric matrices, heaps, options, arithmetics", "why_tests_cant": "The claim ranges over a continuum of real inputs (all dimensions, shape matrices, gradients and offsets); tests sample finitely many.", "anchors": ["src/ellalgo/oracles/lmi_oracle.py:LMIOracle", "src/ellalgo/oracles/lmi0_oracle.py:LMI0Oracle", "src/ellalgo/oracles/lmi_old_oracle.py:LMIOldOracle", "src/ellalgo/oracles/ldlt_mgr.py:LDLTMgr", "src/ellalgo/cutting_plane.py:cutting_plane_feas", "src/ellalgo/ell.py:Ell"]}
{"id": "C101", "title": "The text of ell_stable.py, and of the loops on an EllStable", "statement": "Take the source text of ell_stable.py, ell_calc.py, ell_calc_core.py and cutting_plane.py, run by the evaluator of C96 on a heap. In any arithmetic with the literals of the text, EllStable(val, x), update_bias_cut, update_central_cut, update_q, xc, set_xc and tsq do on the heap what the model of EllStable with rounding (C95) does, for every history of calls whose gradients are not the array of the centre, and write to nothing but the object, its matrix and its centre; with the array of the centre as gradient the second half of _update_core reads the new centre in place of the gradient, and nothing else changes. cutting_plane_feas, cutting_plane_optim and cutting_plane_optim_q on an EllStable return or raise what the model says, for every oracle whose gradients are its own or new arrays. In exact arithmetic cutting_plane_feas with EllStable(R^2, x) returns a point of F within 2(n+1)ln(vol(ball)/vol(F)) iterations if F lies in the ball and has a positive volume; it returns the same point after the same number of iterations as with Ell, unless it ends in a ZeroDivisionError; cutting_plane_optim returns at least every value whose level set has a positive volume; and with LMIOracle, LMIOldOracle and LMI0Oracle it solves linear matrix inequalities as in C100.", "quantifier": "all arithmetics with the literals of the text, dimensions, heaps, histories of calls, oracles and options", "why_tests_cant": "The claim ranges over a continuum of real inputs (all dimensions, shape matrices, gradients and offsets); tests sample finitely many.", "anchors": ["src/ellalgo/ell_stable.py:EllStable", "src/ellalgo/cutting_plane.py:cutting_plane_feas", "src/ellalgo/cutting_plane.py:cutting_plane_optim", "src/ellalgo/cutting_plane.py:cutting_plane_optim_q"]}
{"id": "C102", "title": "EllStable.update_bias_cut may be given any array as gradient", "statement": "Whatever array holds the gradient, also the array that xc() returns, update_bias_cut of the text of ell_stable.py keeps all points of its region that satisfy the cut, and reports NoSoln only if there are none.", "quantifier": "all states, gradients and heaps", "why_tests_cant": "The claim ranges over a continuum of real inputs (all dimensions, shape matrices, gradients and offsets); tests sample finitely many.", "anchors": ["src/ellalgo/ell_stable.py:EllStable._update_core", "src/ellalgo/ell_stable.py:EllStable.update_bias_cut"]}
{"id": "C103", "title": "The text of profit_oracle.py, and of the loops on its oracles", "statement": "Take the source text of profit_oracle.py, ell.py, ell_stable.py, ell_calc.py, ell_calc_core.py and cutting_plane.py, run by the evaluator of C96 on a heap. In any arithmetic with the literals of the text, assess_optim of ProfitOracle and ProfitRbOracle and assess_optim_q of ProfitQOracle do on the heap what the models with rounding do (for ProfitQOracle: if rounding keeps the sign), write to nothing but their own objects, and cutting_plane_optim / cutting_plane_optim_q after the constructors, with Ell or EllStable, return or raise what the model says; the best point is in an array other than that of the centre. In exact arithmetic: ProfitOracle and Ell(R^2, x) return (None, gamma0) or a design within the limit with its profit, with the optimality statement of C64 if they stop on the tolerance, and raise only the ValueError of C65; with EllStable the returned value is the profit of the returned design as well; ProfitRbOracle returns a value that every scenario guarantees; ProfitQOracle returns an integer design and its profit; the constructors raise ValueError if the revenue factor or the limit is not positive.", "quantifier": "all arithmetics with the literals of the text, problems, first points, heaps, levels and options", "why_tests_cant": "The claim ranges over a continuum of real inputs (all dimensions, shape matrices, gradients and offsets); tests sample finitely many.", "anchors": ["src/ellalgo/oracles/profit_oracle.py:ProfitOracle", "src/ellalgo/oracles/profit_oracle.py:ProfitRbOracle", "src/ellalgo/oracles/profit_oracle.py:ProfitQOracle", "src/ellalgo/cutting_plane.py:cutting_plane_optim", "src/ellalgo/cutting_plane.py:cutting_plane_optim_q"]}
{"id": "C104", "title": "The text of conjugate_gradient.py", "statement": "Take the source text of conjugate_gradient.py, run by the evaluator of C96 on a heap. In any arithmetic a call with two to five arguments returns the vector of the model with rounding in a new array or raises the exception of the model, and changes nothing that the caller has: not the matrix, not the right side and not the array given as x0, although the text updates its solution in place. In exact arithmetic, for every matrix, the returned vector has a residual below tol and nothing but ValueError is raised; for symmetric positive definite A, tol>0 and max_iter>=n the text raises if and only if the starting point is the solution; the returned vector is the minimiser of the energy on the first Krylov space whose minimiser is accurate enough.", "quantifier": "all arithmetics, dimensions, matrices, right sides, starting points, tolerances, iteration limits and heaps", "why_tests_cant": "The claim ranges over a continuum of real inputs (all dimensions, shape matrices, gradients and offsets); tests sample finitely many.", "anchors": ["src/ellalgo/conjugate_gradient.py:conjugate_gradient"]}
{"id": "C105", "title": "The text of lowpass_oracle.py", "statement": "Take the source text of lowpass_oracle.py, run by the evaluator of C96 on a heap. In any arithmetic with rounding, LowpassOracle(...) followed by Ell or EllStable and by cutting_plane_feas or cutting_plane_optim gives what the model of this arithmetic gives, on the same array of the centre. In exact arithmetic, on any oracle of a design, with any bound in force and any scanning positions: assess_feas(x) never raises, answers None exactly for the points that meet the whole sampled specification and otherwise with a cut that is violated at x and kept by every point that meets it; assess_optim(x, gamma) accepts exactly the points that meet the specification with gamma and returns the largest stopband response as the new bound. If the responses within the bound contain a ball of radius r, both loops from a ball of radius R, on Ell and on EllStable, find a filter within 2n(n+1)ln(R/r) steps, the optimiser one at least as good as the ball, unless it raises. create_lowpass_case() makes the oracle of the standard design (passband 0.12, stopband 0.20, ripple 1.025) with 48 coefficients.", "quantifier": "all arithmetics, designs, numbers of coefficients, points, bounds, scanning positions, options, values given to the constructor of the space, and heaps", "why_tests_cant": "The claim ranges over a continuum of real inputs (all dimensions, shape matrices, gradients and offsets); tests sample finitely many.", "anchors": ["src/ellalgo/oracles/lowpass_oracle.py:LowpassOracle", "src/ellalgo/oracles/lowpass_oracle.py:create_lowpass_case"]}
{"id": "C106", "title": "Convergence in floating point: with enough bits the loops succeed within a bounded number of iterations", "statement": "Take Ell(R^2, x0) of dimension n >= 2 on machine numbers, and an oracle (which may itself be computed with rounding) that never raises, accepts only points of F, and whose cuts have a single nonnegative offset, a gradient that is not zero and keep a ball of radius r around c with |c| <= D. Let T = (20/9) n(n+1) ln(2R/r) and L = R exp(5(T+1)/(9(n^2-1))). If 24000 (n+1)^4 (T+1) ((L+D)/r)^4 <= 2^p for a significand of p bits, max_iters > T and 8 tolerance <= r^2 eta where eta bounds the squared lengths of the gradients from below, then cutting_plane_feas returns a point of F after at most T iterations: no call of the space reports NoSoln or NoEffect, whatever the roundings do. Under the same conditions cutting_plane_optim, with an oracle that keeps the ball until it has reported a value at least gamma_s, returns a value at least gamma_s, unless it raises, and then such a value had been reported before. The number of bits needed is of the order ln(n R/r). For any arithmetic with relative error u and error gamma of the scalar products, the same under an explicit budget for u and gamma. Example: doubles, the plane, R = 1, r = 1/2.", "quantifier": "all arithmetics (all precisions p), dimensions, oracles, starting points, radii, options", "why_tests_cant": "The claim ranges over a continuum of real inputs (all dimensions, shape matrices, gradients and offsets); tests sample finitely many.", "anchors": ["src/ellalgo/cutting_plane.py:cutting_plane_feas", "src/ellalgo/cutting_plane.py:cutting_plane_optim", "src/ellalgo/ell.py:Ell._update_core"]}
{"id": "C107", "title": "Linear matrix inequalities in floating point, end to end, from the source text", "statement": "Take the source text of the files, run by the evaluator of C96 on machine numbers with p bits, every operation rounded. LMIOracle(mat_f, mat_b), then Ell(R**2, x) with q >= 2 variables, then cutting_plane_feas. Suppose the ball of radius R around x contains a ball of radius r around c, |c| <= D, on which B - sum z_k F_k >= mu I; let X = D + L with T, L as in C106 and let w bound |B| + 3 X sum |F_k| as quadratic forms. If p satisfies the condition of C106, 260 m(m+q+1) <= 2^p, 208 m(m+q+1) w <= mu 2^p, max_iters > T and 8 tolerance <= r^2 (mu/(4X))^2, then the run does not raise and returns within T iterations the array of the centre, which then holds a y with B - sum y_k F_k >= -14 m(m+q+1) w 2^-p I. The same for LMIOldOracle and, with sum y_k F_k, for LMI0Oracle. Without constants: if the ball contains a point at which the inequality holds strictly, then for every delta > 0 there are p0, N and tol > 0 such that with at least p0 bits, more than N iterations and a tolerance of at most tol the run returns a point at which it holds up to delta. C106 holds for the text of Ell, cutting_plane_feas and cutting_plane_optim and any oracle of its kind. Example: doubles, [[y0, -y1], [-y1, 1]] in the unit disc, tolerance 10^-10, 20 iterations.", "quantifier": "all precisions, numbers of variables, orders, symmetric matrices, starting points, radii, margins, options, heaps", "why_tests_cant": "The claim ranges over a continuum of real inputs (all dimensions, shape matrices, gradients and offsets); tests sample finitely many.", "anchors": ["src/ellalgo/oracles/lmi_oracle.py:LMIOracle", "src/ellalgo/oracles/lmi_old_oracle.py:LMIOldOracle", "src/ellalgo/oracles/lmi0_oracle.py:LMI0Oracle", "src/ellalgo/cutting_plane.py:cutting_plane_feas", "src/ellalgo/ell.py:Ell"]}
{"id": "C108", "title": "Spectral factorisation and its inverse, from the source text", "statement": "Take the source text of spectral_fact.py and skeleton.py, run by the evaluator of C96. fib(n) returns the n-th Fibonacci number for n >= 1 and raises AssertionError otherwise. In exact arithmetic, for a one-dimensional array: inverse_spectral_fact returns the autocorrelation in a new array, and raises ValueError on an empty one. spectral_fact raises ValueError on an empty array and RuntimeError if the power spectrum is <= -1e-4 somewhere on the grid of 100 n frequencies, both after its except clauses; otherwise it returns a new array whose squared frequency response at 2 pi k/n is the spectrum, or the spectrum cut off at 1e-10 if it is not positive on the grid, with the minimum phase of C70. Running one function on the result of the other: r_0 and r_t + r_{n-t} come back, and every autocorrelation is accepted, with the magnitudes of the original response. The arrays of the caller never change.", "quantifier": "all lengths, arrays, integers, heaps and locations", "why_tests_cant": "The claim ranges over a continuum of real inputs (all dimensions, shape matrices, gradients and offsets); tests sample finitely many.", "anchors": ["src/ellalgo/oracles/spectral_fact.py:spectral_fact", "src/ellalgo/oracles/spectral_fact.py:inverse_spectral_fact", "src/ellalgo/skeleton.py:fib"]}
{"id": "C109", "title": "bsearch over BSearchAdaptor with EllStable and with Ell: text and accuracy", "statement": "Take the source text of cutting_plane.py, ell.py and ell_stable.py, run by the evaluator of C96. bsearch(BSearchAdaptor(omega, EllStable(...), options), (lower, upper), options2) raises or returns what the model says in any arithmetic; of what was on the heap only the attribute _xc of the search space (and what the oracle owns) changes, because every test runs on a deep copy. In exact arithmetic the search with EllStable and the search with Ell, started from the same ellipsoid, return the same bound, number of tests and x_best, or raise the same exception, unless the one with EllStable raises ZeroDivisionError. For a family F(gamma) growing with gamma, with space = EllStable(R**2, x) or Ell(R**2, x): if F(upper) lies in the ball and has diameter at most R, F(gs) has a positive volume and the inner loop has enough iterations and tolerance <= 0, the bound u after k tests satisfies u <= gs + (upper - lower)/2**k, and u < gs + 2*tolerance if the limit was not reached; x_best is in F(u) unless nothing was found; an exception can only come from a test below gs. Without the condition on the diameter this fails: there is an oracle for which the text returns 1 on (0, 2) although every F(gamma) has a positive volume in the ball.", "quantifier": "all heaps, oracles, dimensions >= 2, radii, intervals, options; every arithmetic for the first part", "why_tests_cant": "The claim ranges over a continuum of real inputs (all dimensions, shape matrices, gradients and offsets); tests sample finitely many.", "anchors": ["src/ellalgo/cutting_plane.py:bsearch", "src/ellalgo/cutting_plane.py:BSearchAdaptor", "src/ellalgo/ell_stable.py:EllStable", "src/ellalgo/ell.py:Ell"]}
{"id": "C110", "title": "power_iteration and its three variants from their text", "statement": "Take the source text of experiment/power_iteration.py, run by the evaluator of C96 (its own program, exact arithmetic, arrays of length >= 1). For every matrix A, start vector x and Options with max_iters and tolerance, a call f(A, x, options) of power_iteration, power_iteration2, power_iteration3 or power_iteration4 ends in one of three ways: it returns the unit vector along A^(k+1) x, its Rayleigh quotient and k for the first k < max_iters at which the stopping test of that function holds; or, if the test never holds, the unit vector along A^max_iters x, its Rayleigh quotient and max_iters; or, if a power that has to be normalised is zero, it raises ZeroDivisionError. Of what was on the heap only the array x changes, and its final contents are given. A returned vector has length one and the number is its Rayleigh quotient. For symmetric A and a return before max_iters, power_iteration is within L tol of an eigenvalue, power_iteration4 within sqrt(n) L tol (L bounds A), and for positive semidefinite A variants 2 and 3 within sqrt(ld tol) + tol. With a negative tolerance every variant finds the largest eigenvalue to relative accuracy eps if (2 max_iters + 1) eps >= ln(|v|^2 |x|^2 / (v.x)^2). Variants 2 and 3 are the same function.", "quantifier": "all matrices, start vectors, tolerances, iteration limits, initial heaps", "why_tests_cant": "The claim ranges over a continuum of real inputs (all dimensions, shape matrices, gradients and offsets); tests sample finitely many.", "anchors": ["experiment/power_iteration.py:power_iteration", "experiment/power_iteration.py:power_iteration2", "experiment/power_iteration.py:power_iteration3", "experiment/power_iteration.py:power_iteration4"]}
{"id": "C111", "title": "ell1d from its text: exact intervals over all histories", "statement": "Take the source text of ell1d.tpy, run by the evaluator of C96 (its own program, exact arithmetic). Let ell = ell1d((l, u)) with l <= u, given as a tuple or list of ints or floats, followed by any history of calls ell.update(cut) and ell.update(cut, central_cut) with nonzero gradients, none of which answered NoSoln. Then the interval [ell._xc - ell._rd, ell._xc + ell._rd] is exactly the set of points of [l, u] that satisfy grad * (x - xc) + beta <= 0 for every cut of the history (beta taken as 0 for central cuts, xc what ell.xc() answered before that call), and nothing else on the heap has changed. A further call never raises; if it answers NoSoln, no point of [l, u] satisfies all cuts. Success at least halves the interval when the cut is central or beta >= 0, NoSoln and NoEffect leave it as it is, and tsq() is (rd * grad)^2. With a zero gradient, update((0, 0)) answers Success and removes every point below the centre although all satisfy the cut.", "quantifier": "all intervals, histories of cuts, ways to write the arguments, initial heaps", "why_tests_cant": "The claim ranges over a continuum of real inputs (all dimensions, shape matrices, gradients and offsets); tests sample finitely many.", "anchors": ["src/ellalgo/ell1d.tpy:ell1d.update", "src/ellalgo/ell1d.tpy:ell1d.__init__", "src/ellalgo/ell1d.tpy:ell1d.xc"]}
{"id": "C112", "title": "A floating-point cut with a pair of offsets keeps the slab up to an explicit inflation", "statement": "In a machine arithmetic whose operations have relative error u and whose inner products of length n have relative error gamma >= n u, let m and L bound the quadratic form mq from below and above, let eps = gamma sqrt(n) L/m and let xi = u |xc| / sqrt(kappa m). Call update_bias_cut, update_central_cut or update_q with a nonzero gradient and a pair of offsets [beta0, beta1], 0 <= beta0 <= (1-a) tau and beta1 - beta0 >= a tau with 0 < a <= 1 (beta0 taken as 0 for the central cut); beta1 may be arbitrarily large. If eps <= a^4/100000 and xi <= a/1000 then Success is reported, the new shape matrix is positive definite, kappa stays positive, and every point x of the old ellipsoid with beta0 <= -grad'(x - xc) <= beta1 lies in the new ellipsoid with kappa multiplied by 1 + 2500 eps/a^4 + 5 xi/a. This covers both ways the pair is handled: the parallel-cut formulas, and the fall-back to the single cut when the computed tsq <= beta1^2.", "quantifier": "all arithmetics, dimensions, states, gradients, pairs of offsets, points, methods", "why_tests_cant": "The claim ranges over a continuum of real inputs (all dimensions, shape matrices, gradients and offsets); tests sample finitely many.", "anchors": ["src/ellalgo/ell_calc.py:EllCalc.calc_parallel", "src/ellalgo/ell_calc.py:EllCalc.calc_parallel_q", "src/ellalgo/ell_calc.py:EllCalc.calc_single_or_parallel_central_cut", "src/ellalgo/ell_calc_core.py:EllCalcCore.calc_parallel_bias_cut_fast", "src/ellalgo/ell_calc_core.py:EllCalcCore.calc_parallel_central_cut", "src/ellalgo/ell.py:Ell.update_bias_cut", "src/ellalgo/ell.py:Ell.update_central_cut", "src/ellalgo/ell.py:Ell.update_q"]}
{"id": "C113", "title": "Both loops succeed in floating point with single cuts and pairs of parallel cuts mixed", "statement": "In a machine arithmetic with relative error u per operation and gamma >= n u per inner product of length n >= 2, start cutting_plane_feas or cutting_plane_optim with Ell(R^2, x0). Let the oracle give cuts of one nonnegative offset or pairs [beta0, beta1], in any order, all of which keep a ball of radius r in the ball of radius R around x0 (for the optimiser: until a value at least as good as a target has been reported); its own rounding errors are included in this. Let the precision be sufficient (PairBudget; with p bits it suffices that 2^p >= 200000 (n+1)^4 T Q^7, where T - 1 is the number of iterations below, Q = (Lambda + D)/r, D bounds the norm of the centre of the ball and Lambda = R (2R/r)^(n/(n-1)) exp(T/(20 (n^2-1))) bounds the semi-axes). With tolerance at most eta r^2/8, eta a lower bound of the squared gradient lengths, and max_iters above K = (20/9) n (n+1) ln(2R/r): the feasibility loop returns a point accepted by the oracle after at most K iterations, and the optimiser reports and returns a value at least as good as the target.", "quantifier": "all arithmetics, dimensions, oracles, radii, centres, options", "why_tests_cant": "The claim ranges over a continuum of real inputs (all dimensions, shape matrices, gradients and offsets); tests sample finitely many.", "anchors": ["src/ellalgo/cutting_plane.py:cutting_plane_feas", "src/ellalgo/cutting_plane.py:cutting_plane_optim", "src/ellalgo/ell.py:Ell._update_core", "src/ellalgo/ell_calc.py:EllCalc.calc_parallel", "src/ellalgo/ell_calc_core.py:EllCalcCore.calc_parallel_bias_cut_fast"]}
{"id": "C114", "title": "A low-pass filter designed in floating point, from the text: the level asked for, and a filter that is right up to an explicit error", "statement": "Run LowpassOracle(n, wpass, wstop, lp_sq, up_sq, sp_sq), Ell(R**2, x) and cutting_plane_optim(oracle, space, g0, options) with numbers of p bits, from the text of their files. Let the filters that are feasible for a level gs < g0 contain a ball of radius 2r around c, |c| <= D, half of which is in the ball of radius R around x; let n >= 2, wstop < 1, the band edges not be moved past a sampled frequency by rounding, 2^p >= 200000 (n+1)^4 T Q^7 (T - 1 = (20/9) n (n+1) ln(2R/r), Q = (semi-axis bound + D)/r) and 2^p r >= twice the numbers of the specification, 8 tolerance <= r^2 and max_iters >= T. If the run returns, it returns a new array with a filter y and a level g <= gs, and at every sampled frequency the true power spectrum of y meets the design with stopband level g up to 340 (n+1) sqrt(n) 2^-p |y|, and g is the largest stopband response of y up to that error. cutting_plane_feas with the same hypotheses for the level sp_sq does return, within T - 1 iterations, the array of x with a filter that meets the specification up to that error. Every response computed by the oracle has that error. The condition on an edge w holds if w (15n - 1) is not within a relative distance 2^-p of an integer.", "quantifier": "all numbers of bits, dimensions, designs, start points, radii, levels, options, heaps", "why_tests_cant": "The claim ranges over a continuum of real inputs (all dimensions, shape matrices, gradients and offsets); tests sample finitely many.", "anchors": ["src/ellalgo/oracles/lowpass_oracle.py:LowpassOracle.__init__", "src/ellalgo/oracles/lowpass_oracle.py:LowpassOracle.assess_optim", "src/ellalgo/oracles/lowpass_oracle.py:LowpassOracle.assess_feas", "src/ellalgo/cutting_plane.py:cutting_plane_optim", "src/ellalgo/cutting_plane.py:cutting_plane_feas", "src/ellalgo/ell.py:Ell"]}
{"id": "C115", "title": "The text of ell_calc.tpy and the text of ell_calc.py, run side by side, give the same answers except at the listed points", "statement": "Run EllCalc(n) from the text of the template ell_calc.tpy and from the text of the shipped ell_calc.py, with exact numbers. For n >= 2 both constructors succeed and change nothing else; for an integer n < 2 the shipped class raises AssertionError, while the template raises ZeroDivisionError for n = 1 and n = -1 and accepts the others. For tsq > 0, calc_single_or_parallel, calc_single_or_parallel_central_cut and calc_single_or_parallel_q of both objects give the same status and parameters ((status, rho, sigma, delta) with zeros in the template for (status, None)), or the same exception, and change no memory: for every single cut (a number, a sequence of one number, or any sequence that starts with a number while use_parallel_cut is False), and for every pair except beta0 + beta1 = 0 (beta1 = 0 for central cuts), where the template raises ZeroDivisionError if the second plane meets the ellipsoid; beta0 < 0 with the second plane touching the ellipsoid, where the shipped file raises AssertionError; and tsq + n beta0 beta1 = 0 in the q variant, where the template answers Success with (0, 0, 1) and the shipped file NoEffect.", "quantifier": "all dimensions, offsets, tsq > 0, representations of the sequence, memories", "why_tests_cant": "The claim ranges over a continuum of real inputs (all dimensions, shape matrices, gradients and offsets); tests sample finitely many.", "anchors": ["src/ellalgo/ell_calc.tpy:EllCalc", "src/ellalgo/ell_calc.py:EllCalc"]}
{"id": "C116", "title": "Loops in floating point with pairs of parallel cuts, from the text", "statement": "Run Ell(R**2, x) and cutting_plane_feas(omega, space, options), or cutting_plane_optim(omega, space, gamma, options), from the text of their files with numbers of p bits. Let n >= 2, and let every cut of the oracle (a single cut or a pair of parallel cuts, in any order) keep a ball of radius r around c, |c| <= D, that lies in the ball of radius R around x. Let 2^p >= 200000 (n+1)^4 T Q^7 with T - 1 = (20/9) n (n+1) ln(2R/r) and Q = (semi-axis bound + D)/r, 8 tolerance <= r^2 eta where eta is a lower bound of |g|^2, and max_iters > T - 1. Then the constructor succeeds, and cutting_plane_feas returns the array of x, which holds an accepted point, and a count of at most T - 1. cutting_plane_optim, unless it raises, returns a value at least as good as any target whose level set contains the ball. The oracle may be any object that meets the contract of the protocol; it may be rounded itself.", "quantifier": "all numbers of bits, dimensions, oracles, radii, start points, options, heaps", "why_tests_cant": "The claim ranges over a continuum of real inputs (all dimensions, shape matrices, gradients and offsets); tests sample finitely many.", "anchors": ["src/ellalgo/cutting_plane.py:cutting_plane_feas", "src/ellalgo/cutting_plane.py:cutting_plane_optim", "src/ellalgo/ell.py:Ell", "src/ellalgo/ell_calc.py:EllCalc.calc_single_or_parallel"]}
{"id": "C117", "title": "bsearch on machine numbers: the interval halves up to the resolution, and the answer is accurate", "statement": "Run bsearch(omega, (lower, upper), options) with numbers of p >= 2 bits (upper - lower, the halving and the midpoint are rounded to nearest, ties to even), for machine numbers lower <= upper and any object with assess_bs, from the text of the file. If it returns (u, k), then k <= max_iters tests were made, all at values in [lower, upper]; u is the last value that was answered True (or upper) and the lower end l is the last one answered False (or lower); l <= u, and u - l <= (upper - lower)/2^k + 4 * 2^-p * max(|lower|, |upper|); if k < max_iters then (1 - 2^-p)(u - l) < 2 tolerance. If (1 + 2^-p)((upper - lower)/2^N + 4 * 2^-p max(|lower|, |upper|)) < 2 tolerance, at most N tests are made. With BSearchAdaptor(omega, Ell(R**2, x), options) as the object, an oracle whose cuts keep a ball of radius r for every parameter in [gs, upper], this ball within R of x and of every accepted point, and enough bits and iterations (as in C107 for single cuts, C116 for pairs): u <= gs + (upper - lower)/2^k + 4 * 2^-p * max(|lower|, |upper|), (1 - 2^-p)(u - gs) < 2 tolerance if k < max_iters, and x_best is a point accepted for u, or u = upper and x_best is the start point; an exception can only come from a test below gs.", "quantifier": "all numbers of bits, objects, oracles, bounds, dimensions >= 2, radii, options, heaps", "why_tests_cant": "The claim ranges over a continuum of real inputs (all dimensions, shape matrices, gradients and offsets); tests sample finitely many.", "anchors": ["src/ellalgo/cutting_plane.py:bsearch", "src/ellalgo/cutting_plane.py:BSearchAdaptor", "src/ellalgo/ell.py:Ell"]}
{"id": "C118", "title": "bsearch never meets a tolerance below the resolution of its numbers", "statement": "Run bsearch(omega, (lower, upper), options) from the text of the file with numbers of p >= 2 bits, for machine numbers 0 < lower < gs <= upper and an object whose assess_bs(gamma) answers gs <= gamma. If 2 tolerance <= (1 - 2^-p) 2^-p lower, then the run makes all of its max_iters tests and returns (u, max_iters) with gs <= u <= gs + (upper - lower)/2^max_iters + 4 * 2^-p upper. In doubles this is the case for the default options (tolerance 1e-20) and the bounds (1.0, 2.0): 2000 tests are made although about 53 decide everything.", "quantifier": "all numbers of bits, objects, bounds, thresholds, options, heaps", "why_tests_cant": "The claim ranges over a continuum of real inputs (all dimensions, shape matrices, gradients and offsets); tests sample finitely many.", "anchors": ["src/ellalgo/cutting_plane.py:bsearch", "src/ellalgo/ell_config.py:Options"]}
{"id": "C119", "title": "bsearch with integer bounds on machine numbers: exact up to 2**p, wrong beyond", "statement": "Run bsearch(omega, (lower, upper), options) from the text of the file with integer bounds and numbers of p >= 2 bits ((upper - lower) / 2 and lower + tau are floats, gamma = int(lower + tau)), for any object with assess_bs. Let -2^p <= lower <= upper <= 2^p. If it returns (u, k), then k <= max_iters integers were tested, all in [lower, upper]; u is the last one answered True (or upper), the lower end l is the last one answered False (or lower), l <= u; u - l <= 2^m whenever upper - lower <= 2^(k+m); and for tolerance <= 1/2 the run stops early only with l = u. If assess_bs(gamma) answers t <= gamma with lower < t <= upper, tolerance <= 1/2 and upper - lower <= 2^max_iters, the run returns (t, max_iters): rounding does no harm. Beyond 2^p it does: for the bounds (2^p, 2^p + 2) and an object that answers False at 2^p every test is made at 2^p, and 2^p + 2 is returned although 2^p + 1 may be accepted (in doubles: 2^53).", "quantifier": "all numbers of bits, objects, integer bounds up to 2^p in absolute value, thresholds, options, heaps", "why_tests_cant": "The claim ranges over a continuum of real inputs (all dimensions, shape matrices, gradients and offsets); tests sample finitely many.", "anchors": ["src/ellalgo/cutting_plane.py:bsearch"]}
{"id": "C120", "title": "The profit maximisation in floating point, end to end: the profit of the comparison ball is reached", "statement": "Take ProfitOracle((price, scale, limit), elasticities, price_out), Ell(R**2, x) and cutting_plane_optim from the text of the files, every arithmetic operation, exp and log rounded to p bits, started from a value g0. Let all designs of a ball of radius r inside the ball of radius R around x respect the limit and have profit gs with a factor exp(delta) to spare, let designs whose costs are at most four times their (slightly inflated) revenue have revenue at most W, and let the number of bits be sufficient for the stated budgets. The profit the oracle reports can fall below the value passed to it, because the value is computed by a subtraction after the cut was decided in logarithms; but by at most d = 9 * 2^-p * W * (1 + ln W). A value of at least gs is reported within (40/3) ln(2R/r) completed iterations, if the tolerance is below r^2 delta^2 / (256 (D + L)^2), and with max_iters above this number and at most N every run that returns gives an array other than the one of the centre, holding a design y, and a value g >= gs - N d; y respects the limit up to the rounding of its logarithm, and g lies between the revenue minus the costs of y when these are changed by factors exp(-+10 * 2^-p * (size of the terms of the logarithm)). The loop is treated for every oracle whose values may fall by d. Doubles are sufficient for a revenue of 100 (y1 y2)^(1/4), a profit of 20 and the default options.", "quantifier": "all profit problems with positive data, numbers of bits, radii, centres, margins, start values, options, heaps within the stated budgets", "why_tests_cant": "The claim ranges over a continuum of real inputs (all dimensions, shape matrices, gradients and offsets); tests sample finitely many.", "anchors": ["src/ellalgo/oracles/profit_oracle.py:ProfitOracle.assess_optim", "src/ellalgo/cutting_plane.py:cutting_plane_optim", "src/ellalgo/ell.py:Ell"]}
{"id": "C121", "title": "The robust profit maximisation in floating point, end to end: every scenario guarantees the value returned", "statement": "Take ProfitRbOracle((price, scale, limit), elasticities, price_out, (e1, ..., e5)), Ell(R**2, x) and cutting_plane_optim from the text of the files, every operation rounded to p bits (also the construction of the worst price, limit, input prices and, at each point, of the worst elasticities), started from a value g0. If the worst scenarios of the four sign patterns, with data perturbed by a relative 2^-p, satisfy the conditions of C120 for one target gs, ball and budget, then a value of at least gs is reported within (40/3) ln(2R/r) completed iterations, and with max_iters above this number and at most N every run that returns gives an array other than the one of the centre holding a design y and a value g >= gs - N d with d = 9 * 2^-p * W * (1 + ln W). For every scenario within the tolerances, y respects its limit and its profit at y is at least g, and one scenario has a profit of at most g at y, where the logarithm of the limit is changed by at most 2^-p (|log limit| + 4), the revenue by a factor exp(14 * 2^-p * size of its logarithm) and the costs by a factor exp(14 * 2^-p). Doubles are sufficient for a revenue of about 100 (y1 y2)^(1/4), tolerances of 0.01 on elasticities and input prices, 1 on the price, 0.1 on the limit, a profit of 20 and the default options.", "quantifier": "all profit problems, tolerances, scenarios, numbers of bits, radii, centres, margins, start values, options, heaps within the stated budgets", "why_tests_cant": "The claim ranges over a continuum of real inputs (all dimensions, shape matrices, gradients and offsets); tests sample finitely many.", "anchors": ["src/ellalgo/oracles/profit_oracle.py:ProfitRbOracle", "src/ellalgo/cutting_plane.py:cutting_plane_optim", "src/ellalgo/ell.py:Ell"]}
{"id": "C122", "title": "The three profit oracles in floating point: what is returned is honest, for every start, value and option, with Ell and EllStable", "statement": "Take ProfitOracle or ProfitRbOracle with cutting_plane_optim, or ProfitQOracle with cutting_plane_optim_q, and Ell(val, x) or EllStable(val, x), from the text of the files, every operation rounded to p >= 11 bits, for any positive problem data, any initial shape val, centre, start value g0 and options. The constructors do not raise. The run raises, or returns (None, g0, k), or returns an array other than the one of the centre with a point y and a value g. For ProfitOracle, y respects the limit up to the rounding of its logarithm and g lies between the revenue minus the costs at y when these are changed by factors exp(-+10 * 2^-p * size). For ProfitRbOracle, every scenario within the tolerances guarantees limit and value at y and one attains the value, up to such factors. For ProfitQOracle, the coordinates of y are the logarithms of positive integers m1, m2 up to a relative error of 2^-p, m1 <= limit * exp(3 * 2^-p * |log limit|), and g is the profit of the integer design (m1, m2) up to factors exp(-+12 * 2^-p * size) on the revenue and exp(-+2^-p (10 + log max(m1, m2))) on the costs.", "quantifier": "all numbers of bits from 11 on, problems, tolerances, scenarios, initial shapes, centres, start values, options, heaps; at model level all search spaces", "why_tests_cant": "The claim ranges over a continuum of real inputs (all dimensions, shape matrices, gradients and offsets); tests sample finitely many.", "anchors": ["src/ellalgo/oracles/profit_oracle.py:ProfitOracle", "src/ellalgo/oracles/profit_oracle.py:ProfitRbOracle", "src/ellalgo/oracles/profit_oracle.py:ProfitQOracle", "src/ellalgo/cutting_plane.py:cutting_plane_optim_q", "src/ellalgo/ell_stable.py:EllStable"]}
{"id": "C123", "title": "Linear matrix inequalities and filter design in floating point: what is returned can be relied on, with Ell and EllStable", "statement": "Take LMIOracle, LMIOldOracle (symmetric m by m matrices mat_f[0..q-1], mat_b, q >= 2) or LMI0Oracle (no mat_b) with cutting_plane_feas, or LowpassOracle with cutting_plane_feas or cutting_plane_optim, and Ell(val, x) or EllStable(val, x), from the text of the files, every operation rounded to p bits with 2^p >= 20 (m+1)(m+q+1), for the filter with n coefficients 2^p >= 328 (n+1) and band edges whose sample index is not changed by rounding. The initial shape val, the centre, the options and the start level are arbitrary; no solution need exist. The constructors do not raise. A run of cutting_plane_feas raises, or returns (None, k), or returns (the array of the centre, k) with k < max_iters, holding a y with v'(B - sum y_k F_k)v >= -14 m (m+q+1) 2^-p (|v|'|B||v| + sum |y_k| |v|'|F_k||v|) for all v, for the filter a y that meets the specification at every sampled frequency up to 340 (n+1) sqrt(n) 2^-p |y|. A run of cutting_plane_optim with the filter oracle raises, or returns (None, g0, k), or returns a new array with a y and a level g such that y meets the design for the level g, and attains g at a sampled frequency of the stopband, up to the same error.", "quantifier": "all numbers of bits above the bound, matrices, orders, dimensions, designs, initial shapes, centres, start levels, options, heaps", "why_tests_cant": "The claim ranges over a continuum of real inputs (all dimensions, shape matrices, gradients and offsets); tests sample finitely many.", "anchors": ["src/ellalgo/oracles/lmi_oracle.py:LMIOracle", "src/ellalgo/oracles/lmi_old_oracle.py:LMIOldOracle", "src/ellalgo/oracles/lmi0_oracle.py:LMI0Oracle", "src/ellalgo/oracles/lowpass_oracle.py:LowpassOracle", "src/ellalgo/cutting_plane.py:cutting_plane_feas", "src/ellalgo/cutting_plane.py:cutting_plane_optim", "src/ellalgo/ell_stable.py:EllStable", "src/ellalgo/ell.py:Ell"]}
{"id": "C124", "title": "LDLTMgr.sqrt in floating point is a Cholesky factor, entry by entry, of every matrix that factorize accepts", "statement": "Take mgr = LDLTMgr(n), mgr.factorize(mat), mgr.sqrt() from the text of the file, with a symmetric n by n array mat and every operation rounded to p bits, 2^p >= 20 (n+1). If factorize returns True, then sqrt does not raise and returns a new n by n array R, writing no other array: R is zero below the diagonal, its diagonal is positive, and for all i, j the entry (R^T R)_ij differs from mat_ij by at most 20 (n+1) 2^-p sqrt(mat_ii mat_jj), however ill-conditioned mat is. If factorize returns False, sqrt raises AssertionError. If 2^p >= 20 n (n+1) and v'(mat)v > 14 n (n+1) 2^-p sum_i mat_ii v_i^2 for all v != 0, factorize does return True. The bound is 10 gamma for any arithmetic with relative error u of one operation, error factor gamma of a sum of products, u <= gamma <= 1/10, and for factor with any element access.", "quantifier": "all numbers of bits above the bound, dimensions, symmetric matrices, heaps", "why_tests_cant": "The claim ranges over a continuum of real inputs (all dimensions, shape matrices, gradients and offsets); tests sample finitely many.", "anchors": ["src/ellalgo/oracles/ldlt_mgr.py:LDLTMgr.sqrt", "src/ellalgo/oracles/ldlt_mgr.py:LDLTMgr.factor", "src/ellalgo/oracles/ldlt_mgr.py:LDLTMgr.factorize"]}
{"id": "C125", "title": "conjugate_gradient in floating point: how far the residual it stops on can be from the true one", "statement": "conjugate_gradient stops when the length of a residual that it updates, and never recomputes, falls below tol. Take a call from the text of the file with two to five arguments, any n by n array A, any b and x0, every operation rounded to p bits, 2^p >= 20 (n+1) and 2^p >= 2 (n+1)(max_iter+1). The call raises, or it returns a new array with an x of true residual ||b - A x|| <= (1 + 6 (n+1) 2^-p) tol + 52 (max_iter+1)(n+1) 2^-p || |b| + |A| X ||, where X is any vector that bounds the absolute values of the entries of `solution` during the run; A, b, x0 and everything else the caller has are unchanged. With k passes made, relative error u of one operation and error factor gamma of a sum of products, u <= gamma <= 1/10, the bound is (1 + 3 gamma) tol + 13 ((1+gamma)^(k+1) - 1) || |b| + |A| X ||. A term beside tol is needed in every precision p >= 2: for A = [[3]], b = [1] the call returns in its first pass the same x for every tol > 0 and max_iter >= 1, and its true residual is not zero, so it is above tol for every small enough tol.", "quantifier": "all numbers of bits above the bound, dimensions, matrices (symmetric or not), right sides, starting points, tolerances, numbers of iterations, heaps", "why_tests_cant": "The claim ranges over a continuum of real inputs (all dimensions, shape matrices, gradients and offsets); tests sample finitely many.", "anchors": ["src/ellalgo/conjugate_gradient.py:conjugate_gradient"]}
{"id": "C126", "title": "A converged power_iteration in floating point has found an approximate eigenpair", "statement": "Take power_iteration(A, x, options) of experiment/power_iteration.py, any n by n array A whose matrix of absolute values has norm at most L, any start vector and options, every operation rounded to p bits, 2^p >= 200 (n+1), sums added from first to last. If the call returns (x, ld, niter), then x has length one up to 8 (n+1) 2^-p, ld is x'Ax up to 4.4 (n+1) 2^-p L, and niter <= max_iters. If niter < max_iters, then ||A x - ld x|| <= L ((1 + 6 (n+1) 2^-p) tolerance + 30 (n+1) 2^-p), and for symmetric A there is an eigenvalue within 25/24 of that of ld. With relative error u of one operation and error factor gamma of a sum of products, u <= gamma <= 1/100, the bound is L ((1 + 3 gamma) tolerance + 15 gamma).", "quantifier": "all numbers of bits above the bound, dimensions, square matrices, start vectors, options", "why_tests_cant": "The claim ranges over a continuum of real inputs (all dimensions, shape matrices, gradients and offsets); tests sample finitely many.", "anchors": ["experiment/power_iteration.py:power_iteration"]}
{"id": "C127", "title": "ell1d in floating point loses no solution beyond a small drift", "statement": "Run the text of ell1d.tpy with every operation rounded to p >= 7 bits: ell = ell1d((l, r)) with floats in [-B, B], then any k calls of update with nonzero gradients, none of which answered NoSoln. Every x of [l, r] with grad*(x - xc) + beta <= 0 for all cuts (beta = 0 for a central one) lies between ell._xc - ell._rd and ell._xc + ell._rd up to B ((1 + 10 * 2^-p)^(k+1) - 1), which is at most 20 (k+1) B / 2^p if 20 (k+1) <= 2^p. No call raises. If the next call answers NoSoln, all points that all cuts keep are within B ((1 + 10 * 2^-p)^(k+2) - 1) of one point, so NoSoln is never answered while two solutions are further apart than twice that. Conversely, if l <= r, every x between ell._xc - ell._rd and ell._xc + ell._rd lies in [l, r] up to that drift D = B ((1 + 10 * 2^-p)^(k+1) - 1) and satisfies every cut up to 2 |grad| D. In doubles ell._rd can become negative (a witness is given), which exact arithmetic excludes; the claims hold in that case too.", "quantifier": "all precisions from 7 bits, intervals, histories of cuts with nonzero gradients", "why_tests_cant": "The claim ranges over a continuum of real inputs (all dimensions, shape matrices, gradients and offsets); tests sample finitely many.", "anchors": ["ell1d.tpy:ell1d.__init__", "ell1d.tpy:ell1d.update", "ell1d.tpy:ell1d.xc"]}
{"id": "C128", "title": "ell1d in floating point halves its interval down to the rounding level", "statement": "Run the text of ell1d.tpy with every operation rounded to p >= 7 bits: ell = ell1d((l, r)) with floats in [-B, B], then k calls of update with nonzero gradients, 20 (k+1) <= 2^p, each central or with beta >= 0, none of which answered NoSoln. Then each call answered Success, ell._rd <= 2 B / 2^k + 36 B / 2^p, and ell.xc() is within 2 B / 2^k + (20 k + 56) B / 2^p of every point of [l, r] that all cuts keep. With relative error u of one operation and M = B (1 + 10 u)^(k+1), the half-width is at most M / 2^k + 18 u M.", "quantifier": "all precisions from 7 bits, intervals, histories of central or deep cuts with nonzero gradients", "why_tests_cant": "The claim ranges over a continuum of real inputs (all dimensions, shape matrices, gradients and offsets); tests sample finitely many.", "anchors": ["ell1d.tpy:ell1d.__init__", "ell1d.tpy:ell1d.update", "ell1d.tpy:ell1d.xc"]}
{"id": "C129", "title": "A converged power_iteration4 in floating point has found an approximate eigenpair", "statement": "Take power_iteration4(A, x, options) of experiment/power_iteration.py, which divides by the sum of absolute values in the loop, any n by n array A whose matrix of absolute values has norm at most L, any start vector and options, every operation rounded to p bits, 2^p >= 200 (n+1), sums added from first to last. If the call returns (x, ld, niter), then x has length one up to 8 (n+1) 2^-p, ld is x'Ax up to 4.4 (n+1) 2^-p L, and niter <= max_iters. If niter < max_iters, then ||A x - ld x|| <= L (4/3 sqrt(n) tolerance + 34 (n+1) 2^-p), and for symmetric A there is an eigenvalue within 25/24 of that of ld. With relative error u of one operation and error factor gamma of a sum of products, u <= gamma <= 1/100, the bound is L (4/3 sqrt(n) tolerance + 17 gamma).", "quantifier": "all numbers of bits above the bound, dimensions, square matrices, start vectors, options", "why_tests_cant": "The claim ranges over a continuum of real inputs (all dimensions, shape matrices, gradients and offsets); tests sample finitely many.", "anchors": ["experiment/power_iteration.py:power_iteration4"]}
{"id": "C130", "title": "A converged power_iteration2 in floating point is near an eigenvalue of a positive semidefinite matrix", "statement": "Take power_iteration2(A, x, options) of experiment/power_iteration.py, which stops when two Rayleigh quotients in a row differ by at most the tolerance, any n by n array A whose matrix of absolute values has norm at most L, any start vector and options, every operation rounded to p bits, 2^p >= 200 (n+1), sums added from first to last. If the call returns (x, ld, niter), then x has length one up to 8 (n+1) 2^-p, ld is x'Ax up to 4.4 (n+1) 2^-p L, and niter <= max_iters. If niter < max_iters and A is symmetric positive semidefinite, then there is an eigenvalue of A within sqrt(1.02 L tolerance + 58 (n+1) 2^-p L^2) + 1.02 tolerance + 20.8 (n+1) 2^-p L of ld. With relative error u of one operation and error factor gamma of a sum of products, in whatever order it is added, u <= gamma <= 1/100, the bound is sqrt(1.02 L tolerance + 29 gamma L^2) + 1.02 tolerance + 10.4 gamma L.", "quantifier": "all numbers of bits above the bound, dimensions, square matrices, start vectors, options", "why_tests_cant": "The claim ranges over a continuum of real inputs (all dimensions, shape matrices, gradients and offsets); tests sample finitely many.", "anchors": ["experiment/power_iteration.py:power_iteration2"]}
{"id": "C131", "title": "A converged power_iteration3 in floating point is near an eigenvalue of a positive semidefinite matrix", "statement": "Take power_iteration3(A, x, options) of experiment/power_iteration.py, which divides by the length only at the end and when x @ x reaches 1e150, any n by n array A whose matrix of absolute values has norm at most L, any start vector and options, every operation rounded to p bits, 2^p >= 200 (n+1), sums added from first to last. If the call returns (x, ld, niter), then x has length one up to 8 (n+1) 2^-p, ld is x'Ax up to 48 (n+1) 2^-p L, and niter <= max_iters. If niter < max_iters and A is symmetric positive semidefinite, then there is an eigenvalue of A within sqrt(1.02 L tolerance + 58 (n+1) 2^-p L^2) + 1.02 tolerance + 20.8 (n+1) 2^-p L of ld. With relative error u of one operation and error factor gamma of a sum of products, in whatever order it is added, u <= gamma <= 1/100, the bound is sqrt(1.02 L tolerance + 29 gamma L^2) + 1.02 tolerance + 10.4 gamma L.", "quantifier": "all numbers of bits above the bound, dimensions, square matrices, start vectors, options", "why_tests_cant": "The claim ranges over a continuum of real inputs (all dimensions, shape matrices, gradients and offsets); tests sample finitely many.", "anchors": ["experiment/power_iteration.py:power_iteration3"]}
{"id": "C132", "title": "With a matrix that is not too near a singular one the power iterations in floating point never divide by zero", "statement": "Take the four functions power_iteration, power_iteration2, power_iteration3, power_iteration4 of experiment/power_iteration.py, any n by n array A with ||A v|| >= m ||v|| for all v whose matrix of absolute values has norm at most L, every operation rounded to p bits, 2^p >= 200 (n+1), sums added from first to last, m > 2 (n+1) 2^-p L. For every start vector that is not zero and all options each of the four returns a result: none of the divisions by a length, a sum of absolute values or x @ x, in whatever pass, has divisor zero. With relative error u of one operation and error factor gamma of a sum of products, in whatever order it is added, u <= gamma <= 1/100, m > gamma L suffices.", "quantifier": "all numbers of bits above the bound, dimensions, matrices with the two bounds, start vectors other than zero, options", "why_tests_cant": "The claim ranges over a continuum of real inputs (all dimensions, shape matrices, gradients and offsets); tests sample finitely many.", "anchors": ["experiment/power_iteration.py:power_iteration", "experiment/power_iteration.py:power_iteration2", "experiment/power_iteration.py:power_iteration3", "experiment/power_iteration.py:power_iteration4"]}
{"id": "C133", "title": "Without semidefiniteness power_iteration2 and power_iteration3 may report convergence far from every eigenvalue", "statement": "For every a > 0, every tolerance >= 0 and every max_iters >= 1, power_iteration2 and power_iteration3 of experiment/power_iteration.py called with the symmetric matrix [[0, a], [a, 0]] and the start vector [1, 0] return the vector [0, 1], the value 0 and the pass number 0, while every eigenvalue of the matrix is at distance a from 0. The same holds when every operation is rounded to p bits, for every p >= 1 and every power of two a. So the hypothesis of semidefiniteness in C86, C130 and C131 cannot be dropped, and no error bound in terms of the tolerance holds without it.", "quantifier": "all a > 0 (all powers of two a and numbers of bits), tolerances, positive max_iters", "why_tests_cant": "The claim ranges over a continuum of real inputs (all dimensions, shape matrices, gradients and offsets); tests sample finitely many.", "anchors": ["experiment/power_iteration.py:power_iteration2", "experiment/power_iteration.py:power_iteration3"]}
{"id": "C134", "title": "power_iteration and power_iteration4 may use all passes and return a value far from every eigenvalue", "statement": "For every a > 0, every max_iters and every tolerance below 2, power_iteration and power_iteration4 of experiment/power_iteration.py called with the symmetric matrix [[0, a], [a, 0]] and the start vector [1, 0] return the value 0 and niter = max_iters, while every eigenvalue of the matrix is at distance a from 0. The same holds when every operation is rounded to p bits, for every p >= 1 and every power of two a. So the hypothesis niter < max_iters in C86, C126 and C129 cannot be dropped, whatever the number of passes: a caller has to look at niter.", "quantifier": "all a > 0 (all powers of two a and numbers of bits), max_iters, tolerances below 2", "why_tests_cant": "The claim ranges over a continuum of real inputs (all dimensions, shape matrices, gradients and offsets); tests sample finitely many.", "anchors": ["experiment/power_iteration.py:power_iteration", "experiment/power_iteration.py:power_iteration4"]}
{"id": "C135", "title": "Scaling by a power of two changes no bit of a power iteration", "statement": "Take power_iteration, power_iteration2 and power_iteration4 of experiment/power_iteration.py, every operation rounded to p bits, sums added from first to last, and c = 2^e for any integer e. For every square matrix A, start vector x and options: calling the function with c x instead of x gives the same vector, value, number of passes and contents of the array, or the same exception. Calling it with c A instead of A (for power_iteration2 with c times the tolerance) gives the same vector and number of passes, and c times the value, or the same exception. In exact arithmetic both hold for every c > 0.", "quantifier": "all numbers of bits, integers e, dimensions, matrices, start vectors, options", "why_tests_cant": "The claim ranges over a continuum of real inputs (all dimensions, shape matrices, gradients and offsets); tests sample finitely many.", "anchors": ["experiment/power_iteration.py:power_iteration", "experiment/power_iteration.py:power_iteration2", "experiment/power_iteration.py:power_iteration4"]}
{"id": "C136", "title": "A cut scaled by a power of two makes the same update bit for bit", "statement": "Take Ell with every operation rounded to p bits, sums added from first to last, and c = 2^k for any integer k. For every state of the object and every cut (g, beta), single or parallel, calling update_bias_cut, update_central_cut or update_q with (c g, c beta) gives the same status or exception and leaves exactly the same centre, matrix and kappa as calling it with (g, beta).", "quantifier": "all numbers of bits, integers k, dimensions, object states, cuts, methods", "why_tests_cant": "The claim ranges over a continuum of real inputs (all dimensions, shape matrices, gradients and offsets); tests sample finitely many.", "anchors": ["ell.py:Ell.update_bias_cut", "ell.py:Ell.update_central_cut", "ell.py:Ell.update_q", "ell_calc.py:EllCalc", "ell_calc_core.py:EllCalcCore"]}
{"id": "C137", "title": "A run with rescaled cuts is the same run bit for bit", "statement": "Take Ell with every operation rounded to p bits, sums added from first to last. In any sequence of calls of update_bias_cut, update_central_cut and update_q on one object, multiply each cut (gradient and offsets) by a power of two chosen separately for each call. Every call then has the same status or exception, and after the sequence the centre, the matrix and kappa are exactly the same.", "quantifier": "all numbers of bits, dimensions, object states, sequences of calls, powers of two", "why_tests_cant": "The claim ranges over a continuum of real inputs (all dimensions, shape matrices, gradients and offsets); tests sample finitely many.", "anchors": ["ell.py:Ell.update_bias_cut", "ell.py:Ell.update_central_cut", "ell.py:Ell.update_q"]}
{"id": "C138", "title": "A run of EllStable with rescaled cuts is the same run bit for bit", "statement": "Take EllStable with every operation rounded to p bits. In any sequence of calls of update_bias_cut, update_central_cut and update_q on one object, multiply each cut (gradient and offsets) by a power of two chosen separately for each call. Every call then has the same status or exception, and after the sequence the centre, kappa and the factorisation (the entries of the array on and below the diagonal) are exactly the same. Only tsq and the scratch entries above the diagonal may differ.", "quantifier": "all numbers of bits, dimensions, object states, sequences of calls, powers of two", "why_tests_cant": "The claim ranges over a continuum of real inputs (all dimensions, shape matrices, gradients and offsets); tests sample finitely many.", "anchors": ["ell_stable.py:EllStable.update_bias_cut", "ell_stable.py:EllStable.update_central_cut", "ell_stable.py:EllStable.update_q"]}
