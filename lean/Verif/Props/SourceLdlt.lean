import Verif.Py.Refine.LdltWit
import Verif.Props.SourceEll
import Verif.Props.Ldlt
import Verif.Props.RoundedLmi

/-!
# Properties of the text of `ldlt_mgr.py`

The methods of `LDLTMgr`, run by the evaluator of `Py/Semantics` (`Py/Refine/LdltMgr`, `Py/Refine/LdltWit`).
-/

namespace Ellalgo

open Finset Matrix Spec LDLTMgr

/-! ### `factor_with_allow_semidefinite` and `sqrt` in exact arithmetic -/

namespace Arith

theorem exact_factorSemiLoop (a : ℕ → ℕ → ℝ) : ∀ (fuel i start : ℕ) (S : ℕ → ℕ → ℝ) (rd : List (ℕ × ℕ)), exact.factorSemiLoop a fuel i start S rd = LDLTMgr.factorSemiLoop a fuel i start S rd
  | 0, _, _, _, _ => rfl
  | fuel + 1, i, start, S, rd => by
    unfold factorSemiLoop LDLTMgr.factorSemiLoop
    rw [exact_row]
    simp only [exact_factorSemiLoop a fuel]

theorem exact_factorSemi (mgr : LDLTMgr ℝ) (a : ℕ → ℕ → ℝ) : exact.factorSemi mgr a = mgr.factorSemi a := by
  unfold factorSemi LDLTMgr.factorSemi; simp only [exact_factorSemiLoop]

theorem exact_sqrtLoop (S : ℕ → ℕ → ℝ) (n : ℕ) (len i : ℕ) (R : ℕ → ℕ → ℝ) (h : ∀ k, i ≤ k → k < i + len → 0 ≤ S k k) :
    exact.sqrtLoop S n len i R = .ok (forUp (LDLTMgr.sqrtRow S n) len i R) := by
  induction len generalizing i R with
  | zero => rfl
  | succ len ih =>
    rw [sqrtLoop, sqrtRow, if_neg (not_lt.mpr (h i le_rfl (by omega)))]
    exact ih (i + 1) _ fun k h1 h2 => h k (by omega) (by omega)

/-- After a successful factorisation no square root of a negative number is taken. -/
theorem exact_sqrt (mgr : LDLTMgr ℝ) (h : mgr.isSpd = true → ∀ k < mgr.ndim, 0 ≤ mgr.storage k k) : exact.ldltSqrt mgr = mgr.sqrt := by
  unfold ldltSqrt LDLTMgr.sqrt
  by_cases hs : mgr.isSpd = true
  · rw [if_pos hs, if_pos hs, exact_sqrtLoop _ _ _ _ _ fun k _ hk => h hs k (by omega)]
    rfl
  · rw [if_neg hs, if_neg hs]

end Arith

namespace Py

variable {W : Type} {n : ℕ}

/-- An array with a matrix. -/
def ArrayAt (st : St W) (k : ℕ) (M : Matrix (Fin n) (Fin n) ℝ) : Prop := st.heap k = some (.mat n n (Matrix.of.symm M)) ∧ k < st.next

theorem square_toArr2' (M : Matrix (Fin n) (Fin n) ℝ) : Obj.square n (toArr2 M) = .mat n n (Matrix.of.symm M) := by
  simp only [Obj.square, toArr2, Fin.is_lt, and_self, dite_true]
  rfl

/-- `C92_accepted` for a symmetric matrix. -/
theorem factorize_accepted {A : Arith} {u γ : ℝ} (m : LDLTMgr ℝ) (hm : m.ndim = n) (hacc : A.Accurate u γ n) (hu : 0 ≤ u) (huγ : u ≤ γ) (hγ : γ ≤ 1 / 10) {M : Matrix (Fin n) (Fin n) ℝ} (hM : M.IsSymm)
    (h : (A.factor m (toArr2 M)).2.1 = true) (v : Vec n) : -(4 * n * γ * ∑ i, M i i * v i ^ 2) ≤ v ⬝ᵥ (M *ᵥ v) := by
  subst hm
  simpa only [toArr2_apply, symOf_toArr2 hM] using C92_accepted m hacc hu huγ hγ (toArr2 M) h v

/-- `C92_rejected` for a symmetric matrix. -/
theorem factorize_rejected {A : Arith} {u γ : ℝ} (m : LDLTMgr ℝ) (hm : m.ndim = n) (hacc : A.Accurate u γ n) (hu : 0 ≤ u) (huγ : u ≤ γ) (hγ : 10 * n * γ ≤ 1) {M : Matrix (Fin n) (Fin n) ℝ} (hM : M.IsSymm)
    (h : (A.factor m (toArr2 M)).2.1 = false) : ∃ v : Vec n, v ≠ 0 ∧ v ⬝ᵥ (M *ᵥ v) ≤ 7 * n * γ * ∑ i, M i i * v i ^ 2 := by
  subst hm
  obtain ⟨m2, ep, -, -, -, -, -, -, h5, h6, -⟩ := C92_rejected m hacc hu huγ hγ (toArr2 M) h
  simp only [toArr2_apply, symOf_toArr2 hM] at h6
  exact ⟨_, h5, h6⟩

section

variable {ext : ℕ → String → List Val → M W Val} {fuel l lw ls : ℕ}

/-- **C99.** `LDLTMgr(n)`, then `factorize(mat)` of the text, in exact arithmetic: `True` if and only if the matrix is positive definite; nothing that was there before changes. -/
theorem C99_decides {st : St W} {k : ℕ} {M : Matrix (Fin n) (Fin n) ℝ} (hM : M.IsSymm) (hk : ArrayAt st k M) :
    ∃ s1 s2 lw ls, ∃ b : Bool, call (mach Arith.exact ext) (fuel + 2) (.glob "LDLTMgr") [.int n] st = .ok (.ref st.next) s1
      ∧ call (mach Arith.exact ext) (fuel + 3) (.meth (.ref st.next) "factorize") [.ref k] s1 = .ok (.bool b) s2
      ∧ (b = true ↔ M.PosDef) ∧ MgrAt s2 st.next lw ls ((LDLTMgr.init n).factor (toArr2 M)).1 ∧ ((LDLTMgr.init n).factor (toArr2 M)).2.1 = b ∧ ∀ j < st.next, s2.heap j = st.heap j := by
  obtain ⟨s1, lw, ls, h1, h2, hw, hs, hf⟩ := new_mgr (A := Arith.exact) (ext := ext) (fuel := fuel) n (st := st)
  have hk1 : s1.heap k = some (.square n (toArr2 M)) := by rw [hf.same k hk.2 not_false, hk.1, square_toArr2']
  obtain ⟨s2, h3, h4, h5⟩ := mgr_factorize (A := Arith.exact) (ext := ext) (fuel := fuel) literals_exact h2 (k := k) hk1 (hk.2.trans_le hf.next) (by
    rintro (h | h | h) <;> have := hk.2 <;> omega)
  rw [Arith.exact_factor] at h3 h4
  refine ⟨s1, s2, lw, ls, _, h1, h3, C37_factorize_posDef (LDLTMgr.init n) rfl M hM, h4, rfl, fun j hj => ?_⟩
  rw [h5.same j (hj.trans_le hf.next) (by omega), hf.same j hj not_false]

/-- **C99.** After a factorisation by the text that returned `True`: `sqrt()` returns a new array, the upper triangular `R` with positive diagonal and `RᵀR` the matrix; `witness()` raises `AssertionError`. -/
theorem C99_sqrt {st : St W} {o : LDLTMgr ℝ} {a : ℕ → ℕ → ℝ} (h : MgrAt st l lw ls (o.factor a).1) (hb : (o.factor a).2.1 = true) :
    (∃ st' R, call (mach Arith.exact ext) (fuel + 2) (.meth (.ref l) "sqrt") [] st = .ok (.ref st.next) st' ∧ ArrayAt st' st.next R ∧ (∀ j < st.next, st'.heap j = st.heap j)
      ∧ (∀ i j, j < i → R i j = 0) ∧ (∀ i, 0 < R i i) ∧ Rᵀ * R = symOf o.ndim a)
    ∧ ∃ st', call (mach Arith.exact ext) (fuel + 2) (.meth (.ref l) "witness") [] st = .exc "AssertionError" st' := by
  constructor
  · have hr := mgr_sqrt (A := Arith.exact) (ext := ext) (fuel := fuel) h
    rw [Arith.exact_sqrt (o.factor a).1 fun _ k hk => ((C38_factors_reproduce o a hb).2 ⟨k, hk⟩).le] at hr
    obtain ⟨R, h1, h2, h3, h4⟩ := (C41_sqrt_is_cholesky o a).1 hb
    rw [h1] at hr
    obtain ⟨st', h5, h6, h7, h8⟩ := hr
    exact ⟨st', Matrix.of fun i j => R i j, h5, ⟨h6, h7⟩, fun j hj => h8.same j hj not_false, h2, h3, h4⟩
  · have h0 : (o.factor a).1.pos.2 = 0 := (isSpd_iff _).mp hb
    obtain ⟨st', h1, -, -⟩ := mgr_witness (A := Arith.exact) (ext := ext) (fuel := fuel) literals_exact h fun h => absurd h0 h
    rw [Arith.exact_witness, C39_witness_raises o a hb] at h1
    exact ⟨st', h1⟩

/-- **C99.** After a factorisation by the text that returned `False`: `witness()` returns `ep ≥ 0`, and then there is a vector `v ≠ 0` with `vᵀAv = -ep` such that `sym_quad(mat)` returns `vᵀ mat v`
for every matrix; `sqrt()` raises `AssertionError`. -/
theorem C99_witness {st : St W} {o : LDLTMgr ℝ} {a : ℕ → ℕ → ℝ} (h : MgrAt st l lw ls (o.factor a).1) (hb : (o.factor a).2.1 = false) :
    (∃ st' ep, ∃ v : Vec o.ndim, call (mach Arith.exact ext) (fuel + 2) (.meth (.ref l) "witness") [] st = .ok (.num ep) st' ∧ 0 ≤ ep ∧ v ≠ 0 ∧ v ⬝ᵥ (symOf o.ndim a *ᵥ v) = -ep
      ∧ (∀ j < st.next, j ≠ lw → st'.heap j = st.heap j)
      ∧ ∀ k B, ArrayAt st' k B → ∃ st'', call (mach Arith.exact ext) (fuel + 2) (.meth (.ref l) "sym_quad") [.ref k] st' = .ok (.num (v ⬝ᵥ (B *ᵥ v))) st'' ∧ ∀ j < st'.next, st''.heap j = st'.heap j)
    ∧ ∃ st', call (mach Arith.exact ext) (fuel + 2) (.meth (.ref l) "sqrt") [] st = .exc "AssertionError" st' := by
  constructor
  · obtain ⟨m2, ep, h1, h2, h3, h4, h5, -, h6, h7, h8⟩ := C39_witness_certifies o a hb
    obtain ⟨st', h9, h10, h11⟩ := mgr_witness (A := Arith.exact) (ext := ext) (fuel := fuel) literals_exact h fun _ => by rw [← h3]; exact ⟨h4, h5⟩
    have hw := Arith.exact_witness (o.factor a).1
    rw [hw, h1] at h9 h10
    have hdim : m2.ndim = o.ndim := by
      have : m2 = (o.factor a).1.witness.1 := by rw [h1]
      rw [this, witness]; split <;> rfl
    refine ⟨st', ep, _, h9, h2, h6, h7, fun j hj hne => h11.same j hj hne, fun k B hB => ?_⟩
    obtain ⟨st'', h12, h13⟩ := mgr_sym_quad (A := Arith.exact) (ext := ext) (fuel := fuel) h10 h4.le (by rw [hdim]; exact h5) (k := k) (f := toArr2 B) (by rw [hB.1, ← square_toArr2', hdim]) hB.2
    rw [Arith.exact_symQuad, h8] at h12
    exact ⟨st'', h12, fun j hj => h13.same j hj not_false⟩
  · have hr := mgr_sqrt (A := Arith.exact) (ext := ext) (fuel := fuel) h
    have hs : (o.factor a).1.isSpd = false := hb
    rw [Arith.ldltSqrt, hs] at hr
    obtain ⟨st', h1, -⟩ := hr
    exact ⟨st', h1⟩

/-- **C99.** `factor(get_elem)` of the text in exact arithmetic, for a function of the caller that gives the entries `a i j`: whatever the function keeps of the calls made to it (`J`), it was called once for each entry of the
lower triangle, row by row, and not beyond the row in which the factorisation stops. -/
theorem C99_lazy {vg : Val} {a : ℕ → ℕ → ℝ} {J : List (ℕ × ℕ) → St W → Prop} {st : St W} {o : LDLTMgr ℝ} (hg : Getter Arith.exact ext (fuel + 1) o.ndim vg a (fun k => k = l ∨ k = ls) J)
    (h : MgrAt st l lw ls o) (hJ : J [] st) :
    ∃ st' b, call (mach Arith.exact ext) (fuel + 2) (.meth (.ref l) "factor") [vg] st = .ok (.bool b) st' ∧ (b = true ↔ QuadPos (symOf o.ndim a))
      ∧ MgrAt st' l lw ls (o.factor a).1 ∧ (∀ j < st.next, j ≠ l → j ≠ ls → st'.heap j = st.heap j)
      ∧ J ((List.range (if b then o.ndim else (o.factor a).1.pos.2)).flatMap fun i => (List.range (i + 1)).map fun c => (i, c)) st' := by
  obtain ⟨st', h1, h2, h3, h4⟩ := mgr_factor hg literals_exact h rfl hJ
  rw [Arith.exact_factor] at h1 h2 h3
  rw [C40_factor_lazy] at h3
  exact ⟨st', _, h1, C37_factor_decides_spd o a, h2, fun j hj h5 h6 => h4.same j hj (by tauto), h3⟩

/-- **C99.** `factor_with_allow_semidefinite(get_elem)` of the text: it returns `True` for a positive semidefinite matrix; when it returns `False`, `witness()` returns `ep > 0` and there is `v ≠ 0` with `vᵀAv = -ep`. -/
theorem C99_semidefinite {vg : Val} {a : ℕ → ℕ → ℝ} {J : List (ℕ × ℕ) → St W → Prop} {st : St W} {o : LDLTMgr ℝ} (hg : Getter Arith.exact ext (fuel + 1) o.ndim vg a (fun k => k = l ∨ k = ls) J)
    (h : MgrAt st l lw ls o) (hJ : J [] st) :
    ∃ st' b, call (mach Arith.exact ext) (fuel + 2) (.meth (.ref l) "factor_with_allow_semidefinite") [vg] st = .ok (.bool b) st' ∧ MgrAt st' l lw ls (o.factorSemi a).1
      ∧ (QuadNonneg (symOf o.ndim a) → b = true)
      ∧ (b = false → ∃ st'' ep, ∃ v : Vec o.ndim, call (mach Arith.exact ext) (fuel + 2) (.meth (.ref l) "witness") [] st' = .ok (.num ep) st'' ∧ 0 < ep ∧ v ≠ 0 ∧ v ⬝ᵥ (symOf o.ndim a *ᵥ v) = -ep) := by
  obtain ⟨st', h1, h2, h3, h4⟩ := mgr_factor_semi hg literals_exact h rfl hJ
  rw [Arith.exact_factorSemi] at h1 h2
  refine ⟨st', _, h1, h2, (C42_semidefinite_partial o a).1, fun hb => ?_⟩
  obtain ⟨m2, ep, h5, h6, h7, h8, h9, -, h10, h11, -⟩ := C39_semi_witness_certifies o a hb
  obtain ⟨st'', h12, -, -⟩ := mgr_witness (A := Arith.exact) (ext := ext) (fuel := fuel) literals_exact h2 fun _ => by rw [← h7]; exact ⟨h8, h9⟩
  rw [Arith.exact_witness, h5] at h12
  exact ⟨st'', ep, _, h12, h6, h10, h11⟩

/-- **C99.** `LDLTMgr(n)`, then `factorize(mat)` of the text in floating-point arithmetic: when it returns `True`, `vᵀ mat v ≥ -4 n γ Σ mat_ii v_i²`; when it returns `False`, `vᵀ mat v ≤ 7 n γ Σ mat_ii v_i²` for some `v ≠ 0`. -/
theorem C99_float {A : Arith} {u γ : ℝ} (hA : Literals A) (hacc : A.Accurate u γ n) (hu : 0 ≤ u) (huγ : u ≤ γ) (hγ : 10 * n * γ ≤ 1) (hγ' : γ ≤ 1 / 10) {st : St W} {k : ℕ} {M : Matrix (Fin n) (Fin n) ℝ} (hM : M.IsSymm) (hk : ArrayAt st k M) :
    ∃ s1 s2, ∃ b : Bool, call (mach A ext) (fuel + 2) (.glob "LDLTMgr") [.int n] st = .ok (.ref st.next) s1
      ∧ call (mach A ext) (fuel + 3) (.meth (.ref st.next) "factorize") [.ref k] s1 = .ok (.bool b) s2
      ∧ (b = true → ∀ v : Vec n, -(4 * n * γ * ∑ i, M i i * v i ^ 2) ≤ v ⬝ᵥ (M *ᵥ v))
      ∧ (b = false → ∃ v : Vec n, v ≠ 0 ∧ v ⬝ᵥ (M *ᵥ v) ≤ 7 * n * γ * ∑ i, M i i * v i ^ 2) := by
  obtain ⟨s1, lw, ls, h1, h2, hw, hs, hf⟩ := new_mgr (A := A) (ext := ext) (fuel := fuel) n (st := st)
  have hk1 : s1.heap k = some (.square n (toArr2 M)) := by rw [hf.same k hk.2 not_false, hk.1, square_toArr2']
  obtain ⟨s2, h3, -, -⟩ := mgr_factorize (A := A) (ext := ext) (fuel := fuel) hA h2 (k := k) hk1 (hk.2.trans_le hf.next) (by
    rintro (h | h | h) <;> have := hk.2 <;> omega)
  exact ⟨s1, s2, _, h1, h3, fun hb v => factorize_accepted _ rfl hacc hu huγ hγ' hM hb v, fun hb => factorize_rejected _ rfl hacc hu huγ hγ hM hb⟩

end

/-! ### The hypotheses can be met -/

/-- Two arrays. -/
def matHeap : St Unit := ⟨fun k => if k = 0 then some (.mat 2 2 ![![2, 1], ![1, 2]]) else if k = 1 then some (.mat 2 2 ![![0, 1], ![1, 0]]) else none, 2, ()⟩

theorem matHeap_zero : ArrayAt matHeap 0 (!![2, 1; 1, 2] : Matrix (Fin 2) (Fin 2) ℝ) := ⟨rfl, by decide⟩
theorem matHeap_one : ArrayAt matHeap 1 (!![0, 1; 1, 0] : Matrix (Fin 2) (Fin 2) ℝ) := ⟨rfl, by decide⟩

theorem swap_not_posDef : ¬ (!![0, 1; 1, 0] : Matrix (Fin 2) (Fin 2) ℝ).PosDef := fun h => by
  have := h.diag_pos (i := 0)
  simp at this

/-- `C99_decides`, then `C99_sqrt`: on the first array. -/
example (ext : ℕ → String → List Val → M Unit Val) : ∃ s1 s2 s3, ∃ R : Matrix (Fin 2) (Fin 2) ℝ, call (mach Arith.exact ext) 2 (.glob "LDLTMgr") [.int 2] matHeap = .ok (.ref 2) s1
    ∧ call (mach Arith.exact ext) 3 (.meth (.ref 2) "factorize") [.ref 0] s1 = .ok (.bool true) s2
    ∧ call (mach Arith.exact ext) 2 (.meth (.ref 2) "sqrt") [] s2 = .ok (.ref s2.next) s3 ∧ ArrayAt s3 s2.next R ∧ Rᵀ * R = !![2, 1; 1, 2] := by
  have hM : (!![2, 1; 1, 2] : Matrix (Fin 2) (Fin 2) ℝ).IsSymm := by ext i j; fin_cases i <;> fin_cases j <;> rfl
  obtain ⟨s1, s2, lw, ls, b, h1, h2, h3, h4, h5, -⟩ := C99_decides (ext := ext) (fuel := 0) hM matHeap_zero
  have hb : b = true := by
    refine h3.mpr (Matrix.PosDef.of_dotProduct_mulVec_pos (by rwa [isHermitian_iff_isSymm]) fun v hv => ?_)
    have : v 0 ≠ 0 ∨ v 1 ≠ 0 := by
      by_contra hc
      push Not at hc
      exact hv (by ext i; fin_cases i; exacts [hc.1, hc.2])
    simp [dotProduct, mulVec, Fin.sum_univ_two]
    rcases this with h | h
    · nlinarith [sq_nonneg (v 0 + v 1), sq_nonneg (v 1), (sq_pos_iff.mpr h)]
    · nlinarith [sq_nonneg (v 0 + v 1), sq_nonneg (v 0), (sq_pos_iff.mpr h)]
  subst hb
  obtain ⟨⟨s3, R, h6, h7, -, -, -, h8⟩, -⟩ := C99_sqrt (ext := ext) (fuel := 0) h4 h5
  have e : symOf (LDLTMgr.init 2 : LDLTMgr ℝ).ndim (toArr2 (!![2, 1; 1, 2] : Matrix (Fin 2) (Fin 2) ℝ)) = !![2, 1; 1, 2] := symOf_toArr2 hM
  exact ⟨s1, s2, s3, R, h1, h2, h6, h7, h8.trans e⟩

/-- `C99_decides`, then `C99_witness`: on the second array. -/
example (ext : ℕ → String → List Val → M Unit Val) : ∃ s1 s2 s3 ep, call (mach Arith.exact ext) 2 (.glob "LDLTMgr") [.int 2] matHeap = .ok (.ref 2) s1
    ∧ call (mach Arith.exact ext) 3 (.meth (.ref 2) "factorize") [.ref 1] s1 = .ok (.bool false) s2
    ∧ call (mach Arith.exact ext) 2 (.meth (.ref 2) "witness") [] s2 = .ok (.num ep) s3 ∧ 0 ≤ ep := by
  have hM : (!![0, 1; 1, 0] : Matrix (Fin 2) (Fin 2) ℝ).IsSymm := by ext i j; fin_cases i <;> fin_cases j <;> rfl
  obtain ⟨s1, s2, lw, ls, b, h1, h2, h3, h4, h5, -⟩ := C99_decides (ext := ext) (fuel := 0) hM matHeap_one
  have hb : b = false := by
    cases b
    · rfl
    · exact absurd (h3.mp rfl) swap_not_posDef
  subst hb
  obtain ⟨⟨s3, ep, v, h6, h7, -⟩, -⟩ := C99_witness (ext := ext) (fuel := 0) h4 h5
  exact ⟨s1, s2, s3, ep, h1, h2, h6, h7⟩

/-- A function of the caller that keeps a list of the calls made to it. -/
noncomputable def recordExt (a : ℕ → ℕ → ℝ) : ℕ → String → List Val → M (List (ℕ × ℕ)) Val := fun _ _ args st =>
  match args with
  | [.int i, .int j] => .ok (.num (a i.toNat j.toNat)) { st with world := st.world ++ [(i.toNat, j.toNat)] }
  | _ => .exc "TypeError" st

theorem getter_record (a : ℕ → ℕ → ℝ) (fuel n u l ls : ℕ) (h1 : u ≠ l) (h2 : u ≠ ls) :
    Getter Arith.exact (recordExt a) (fuel + 1) n (.meth (.ref u) "get_elem") a (fun k => k = l ∨ k = ls) (fun r st => st.heap u = some .user ∧ u < st.next ∧ st.world = r) where
  get {r st i j} h _ _ := ⟨.num (a i j), { st with world := st.world ++ [(i, j)] }, by rw [call_user h.1]; rfl, .num _ _, ⟨h.1, h.2.1, by rw [← h.2.2]⟩, le_rfl, fun _ _ _ => rfl⟩
  keep h hf := ⟨(hf.same u h.2.1 (by tauto)).trans h.1, h.2.1.trans_le hf.next, hf.world.trans h.2.2⟩

theorem ones_not_pos (q : ℕ) : ¬ QuadPos (symOf (q + 2) fun _ _ => (1 : ℝ)) := fun h => by
  have e : symOf (q + 2) (fun _ _ => (1 : ℝ)) = Matrix.of fun _ _ => 1 := by ext i j; simp [symOf]
  rw [e] at h
  have h1 := h (fun i => if i = 0 then 1 else if i = 1 then -1 else 0) (fun h => by simpa using congrFun h (0 : Fin (q + 2)))
  have h2 : (Matrix.of fun _ _ : Fin (q + 2) => (1 : ℝ)) *ᵥ (fun i => if i = 0 then 1 else if i = 1 then -1 else 0) = 0 := by
    ext i
    simp only [mulVec, dotProduct, Matrix.of_apply, one_mul, Pi.zero_apply]
    rw [Fin.sum_univ_succ, Fin.sum_univ_succ]
    simp [Fin.ext_iff]
  rw [h2] at h1
  simp at h1

/-- `C99_lazy` and `C99_semidefinite` with that function: for a matrix whose entry (1, 1) is not positive it is called three times, whatever the dimension. -/
example (q : ℕ) : ∃ s1 s2 : St (List (ℕ × ℕ)), call (mach Arith.exact (recordExt fun _ _ => 1)) 2 (.glob "LDLTMgr") [.int (q + 2 : ℕ)] ⟨fun k => if k = 0 then some .user else none, 1, []⟩ = .ok (.ref 1) s1
    ∧ call (mach Arith.exact (recordExt fun _ _ => 1)) 2 (.meth (.ref 1) "factor") [.meth (.ref 0) "get_elem"] s1 = .ok (.bool false) s2 ∧ s2.world = [(0, 0), (1, 0), (1, 1)] := by
  obtain ⟨s1, lw, ls, h1, h2, hw, hs, hf⟩ := new_mgr (A := Arith.exact) (ext := recordExt fun _ _ => 1) (fuel := 0) (q + 2) (st := ⟨fun k => if k = 0 then some .user else none, 1, []⟩)
  obtain ⟨s2, b, h3, h4, -, -, h5⟩ := C99_lazy (ext := recordExt fun _ _ => 1) (fuel := 0) (getter_record (fun _ _ => 1) 0 (q + 2) 0 1 ls (by decide) (by simp at hs; omega)) h2
    ⟨hf.same 0 (by decide) not_false, lt_of_lt_of_le (by decide : 0 < 1) hf.next, hf.world⟩
  have hp : ((LDLTMgr.init (q + 2) : LDLTMgr ℝ).factor fun _ _ => 1).1.pos.2 = 2 := by
    simp [LDLTMgr.factor, LDLTMgr.init, LDLTMgr.factorLoop, LDLTMgr.row, LDLTMgr.rowStep, forRange, forUp, set2]
    rw [if_neg (by norm_num)]
  have hb : b = false := by
    cases b
    · rfl
    · exact absurd (h4.mp rfl) (ones_not_pos q)
  subst hb
  rw [hp] at h5
  exact ⟨s1, s2, h1, h3, h5.2.2⟩

/-- `C99_float` in double precision, on the first array. -/
example (ext : ℕ → String → List Val → M Unit Val) : ∃ s1 s2, ∃ b : Bool, call (mach (Arith.ieee 53) ext) 2 (.glob "LDLTMgr") [.int 2] matHeap = .ok (.ref 2) s1
    ∧ call (mach (Arith.ieee 53) ext) 3 (.meth (.ref 2) "factorize") [.ref 0] s1 = .ok (.bool b) s2 := by
  have hM : (!![2, 1; 1, 2] : Matrix (Fin 2) (Fin 2) ℝ).IsSymm := by ext i j; fin_cases i <;> fin_cases j <;> rfl
  obtain ⟨s1, s2, b, h1, h2, -⟩ := C99_float (ext := ext) (fuel := 0) literals_double (Arith.ieee_accurate 53 2) (by positivity) (by norm_num) (by norm_num) (by norm_num) hM matHeap_zero
  exact ⟨s1, s2, b, h1, h2⟩

end Py

end Ellalgo
