import Verif.Py.Refine.Lowpass
import Verif.Model.SpectralFact

/-!
# The text of `spectral_fact.py` computes what `Model/SpectralFact` says

The arithmetic is the exact one.
-/

set_option linter.unusedSimpArgs false

namespace Ellalgo.Py

variable {W : Type} {n : ℕ} {ext : ℕ → String → List Val → M W Val} {fuel : ℕ}

/-! ### Functions of the libraries -/

section
variable {A : Arith} {st : St W} {l k m : ℕ}

@[py] theorem builtin_slice (u v w : Val) : builtin A "slice" [u, v, w] st = .ok (.tuple [.str "slice", u, v, w]) st := rfl
@[py] theorem toIdx_rev : toIdx (.tuple [.str "slice", .none, .none, .int (-1)]) st = .ok .rev st := by
  simp only [toIdx, if_true, pure_apply]
@[py] theorem toIdx_from (a : ℤ) : toIdx (.tuple [.str "slice", .int a, .none]) st = .ok (.slice (some a) none) st := rfl
@[py] theorem toIdx_between (a b : ℤ) : toIdx (.tuple [.str "slice", .int a, .int b]) st = .ok (.slice (some a) (some b)) st := rfl
theorem toIdx_many {x : Fin n → ℤ} (h : st.heap l = some (.ivec n x)) : toIdx (.ref l) st = .ok (.many n x) st := by
  simp only [toIdx, bind_apply, getObj_apply h, rbind_ok, pure_apply]

theorem item_rev {x : Vec n} (h : st.heap l = some (.vec n x)) : getItem (.ref l) [.rev] st = .ok (.ref st.next) (st.alloc (.vec n fun i => x i.rev)) := by
  simp only [getItem, bind_apply, getObj_apply h, rbind_ok, allocObj_apply]

theorem np_convolve {x : Vec n} {y : Vec m} (h : st.heap l = some (.vec n x)) (h' : st.heap k = some (.vec m y)) :
    builtin A "np.convolve" [.ref l, .ref k] st
      = if n = 0 ∨ m = 0 then .exc "ValueError" st
        else .ok (.ref st.next) (st.alloc (.vec (n + m - 1) fun t => A.rnd (∑ i : Fin n, ∑ j : Fin m, if (i : ℕ) + j = t then x i * y j else 0))) := by
  show builtinSpectral A "np.convolve" [.ref l, .ref k] st = _
  simp only [builtinSpectral, bind_apply, getObj_apply h, getObj_apply h', rbind_ok, allocObj_apply, ite_st, exc_apply]

end

theorem vec_len_cast {c d : ℕ} (h : c = d) {f : Vec c} {g : Vec d} (hfg : ∀ i, f i = g (i.cast h)) : Obj.vec c f = Obj.vec d g := by
  subst h
  congr
  funext i
  exact hfg i

section
variable {A : Arith} {st : St W} {l k m a : ℕ}

theorem item_from {x : Vec n} (h : st.heap l = some (.vec n x)) (ha : a ≤ n) :
    getItem (.ref l) [.slice (some (a : ℤ)) none] st = .ok (.ref st.next) (st.alloc (.vec (n - a) fun i => at1 x (a + i))) := by
  have hs : sliceRange n (some (a : ℤ)) none st = .ok (a, n) st := by
    simp only [sliceRange, Option.getD_some, Option.getD_none, Int.natCast_nonneg, Nat.cast_le, ha, le_refl, and_self, if_true, Int.toNat_natCast, pure_apply]
  simp only [getItem, bind_apply, getObj_apply h, rbind_ok, allocObj_apply, hs]
  rfl

theorem citem_between {x : Fin n → ℂ} (h : st.heap l = some (.cvec n x)) (ha : a ≤ m) (hm : m ≤ n) :
    getItem (.ref l) [.slice (some (a : ℤ)) (some (m : ℤ))] st = .ok (.ref st.next) (st.alloc (.cvec (m - a) fun i => atc x (a + i))) := by
  have hs : sliceRange n (some (a : ℤ)) (some (m : ℤ)) st = .ok (a, m) st := by
    simp only [sliceRange, Option.getD_some, Int.natCast_nonneg, Nat.cast_le, ha, hm, and_self, if_true, Int.toNat_natCast, pure_apply]
  simp only [getItem, bind_apply, getObj_apply h, rbind_ok, allocObj_apply, hs]

theorem set_between {x : Fin n → ℂ} {y : Fin (m - a) → ℂ} (h : st.heap l = some (.cvec n x)) (h' : st.heap k = some (.cvec (m - a) y)) (ha : a ≤ m) (hm : m ≤ n) :
    setItem A (.ref l) [.slice (some (a : ℤ)) (some (m : ℤ))] (.ref k) st
      = .ok () (st.put l (.cvec n fun i => if a ≤ (i : ℕ) ∧ (i : ℕ) < m then atc y (i - a) else x i)) := by
  have hs : sliceRange n (some (a : ℤ)) (some (m : ℤ)) st = .ok (a, m) st := by
    simp only [sliceRange, Option.getD_some, Int.natCast_nonneg, Nat.cast_le, ha, hm, and_self, if_true, Int.toNat_natCast, pure_apply]
  simp only [setItem, setSlice, bind_apply, getObj_apply h, getObj_apply h', rbind_ok, hs, if_true, putObj_apply]

theorem set_centry {x : Fin n → ℂ} (h : st.heap l = some (.cvec n x)) (ha : a < n) (y : ℤ) :
    setItem A (.ref l) [.pos (a : ℤ)] (.int y) st = .ok () (st.put l (.cvec n fun i => if (i : ℕ) = a then ((A.rnd y : ℝ) : ℂ) else x i)) := by
  simp only [setItem, setEntry, bind_apply, getObj_apply h, rbind_ok, entry, toFloat_int, normIdx_nat ha, orIndexError, py]

theorem item_many {x : Vec n} (h : st.heap l = some (.vec n x)) {q : Fin m → ℤ} (f : Fin m → ℕ) (hq : ∀ i, q i = f i) (hf : ∀ i, f i < n) :
    getItem (.ref l) [.many m q] st = .ok (.ref st.next) (st.alloc (.vec m fun i => x ⟨f i, hf i⟩)) := by
  have hn : ∀ i, normIdx n (q i) = some (f i) := fun i => by rw [hq]; exact normIdx_nat (hf i)
  simp only [getItem, bind_apply, getObj_apply h, rbind_ok, hn, Option.isSome_some, implies_true, if_true, Option.getD_some, allocObj_apply, at1, hf, dite_true]

theorem np_isfinite {x : Vec n} (h : st.heap l = some (.vec n x)) : builtin A "np.isfinite" [.ref l] st = .ok (.ref st.next) (st.alloc (.mask n fun _ => True)) := by
  show builtinSpectral A "np.isfinite" [.ref l] st = _
  simp only [builtinSpectral, bind_apply, getObj_apply h, rbind_ok, allocObj_apply]

theorem np_min {x : Vec n} (h : st.heap l = some (.vec n x)) (h0 : 0 < n) :
    builtin A "np.min" [.ref l] st = .ok (.num (Finset.univ.inf' ⟨⟨0, h0⟩, Finset.mem_univ _⟩ x)) st := by
  show builtinSpectral A "np.min" [.ref l] st = _
  simp only [builtinSpectral, bind_apply, getObj_apply h, rbind_ok, dif_pos h0, pure_apply]

theorem np_maximum {x : Vec n} (h : st.heap l = some (.vec n x)) (y : ℝ) :
    builtin A "np.maximum" [.ref l, .num y] st = .ok (.ref st.next) (st.alloc (.vec n fun i => max (x i) y)) := by
  show builtinSpectral A "np.maximum" [.ref l, .num y] st = _
  simp only [builtinSpectral, bind_apply, getObj_apply h, rbind_ok, allocObj_apply]

theorem np_hstack {r c d : ℕ} {x : Fin r → Fin c → ℝ} {y : Fin r → Fin d → ℝ} (hl : st.heap l = some (.mat r c x)) (hk : st.heap k = some (.mat r d y)) :
    builtin A "np.hstack" [.tuple [.ref l, .ref k]] st = .ok (.ref st.next) (st.alloc (.mat r (c + d) (beside x y))) := by
  show builtinSpectral A "np.hstack" [.tuple [.ref l, .ref k]] st = _
  simp only [builtinSpectral, bind_apply, getObj_apply hl, getObj_apply hk, rbind_ok, dif_pos, allocObj_apply]
  rfl

theorem np_linspace_open (a : ℤ) (b : ℝ) (N : ℕ) :
    builtin A "np.linspace endpoint=" [.int a, .num b, .int N, .bool false] st
      = .ok (.ref st.next) (st.alloc (.vec N fun i => A.add (A.mul (i : ℕ) (A.div (A.sub b (A.rnd a)) N)) (A.rnd a))) := rfl

theorem np_arange_step (N q : ℕ) (h : 0 < q) :
    builtin A "np.arange step=" [.int 0, .int ((q * N : ℕ) : ℤ), .int q] st = .ok (.ref st.next) (st.alloc (.ivec N fun i => (((q * i : ℕ) : ℤ)))) := by
  show builtinSpectral A "np.arange step=" [.int 0, .int ((q * N : ℕ) : ℤ), .int q] st = _
  have h' : (0 : ℤ) < q := by exact_mod_cast h
  have e : ((((q * N : ℕ) : ℤ) - 0 + q - 1) / q).toNat = N := by
    have : (((q * N : ℕ) : ℤ) - 0 + q - 1) = (q - 1) + N * q := by push_cast; ring
    rw [this, Int.add_mul_ediv_right _ _ h'.ne', Int.ediv_eq_zero_of_lt (by omega) (by omega)]
    simp
  simp only [builtinSpectral, h', if_true, allocObj_apply]
  rw [e]
  simp only [zero_add, Nat.cast_mul, mul_comm]

theorem np_fft {x : Vec n} (h : st.heap l = some (.vec n x)) (h0 : n ≠ 0) :
    builtin A "np.fft.fft" [.ref l] st = .ok (.ref st.next) (st.alloc (.cvec n fun i => crnd A (dft (fun j => (x j : ℂ)) i))) := by
  show builtinSpectral A "np.fft.fft" [.ref l] st = _
  simp only [builtinSpectral, bind_apply, getObj_apply h, rbind_ok, Obj.toComplex, h0, if_false, allocObj_apply]

theorem np_ifft {x : Fin n → ℂ} (h : st.heap l = some (.cvec n x)) (h0 : n ≠ 0) :
    builtin A "np.fft.ifft" [.ref l] st = .ok (.ref st.next) (st.alloc (.cvec n fun i => crnd A (idft x i))) := by
  show builtinSpectral A "np.fft.ifft" [.ref l] st = _
  simp only [builtinSpectral, bind_apply, getObj_apply h, rbind_ok, Obj.toComplex, h0, if_false, allocObj_apply]

theorem np_ifft_len {x : Fin n → ℂ} (h : st.heap l = some (.cvec n x)) (h0 : n ≠ 0) :
    builtin A "np.fft.ifft" [.ref l, .int n] st = .ok (.ref st.next) (st.alloc (.cvec n fun i => crnd A (idft x i))) := by
  show builtinSpectral A "np.fft.ifft" [.ref l, .int n] st = _
  have h' : ¬ (n : ℤ) ≤ 0 := by omega
  simp only [builtinSpectral, bind_apply, getObj_apply h, rbind_ok, Obj.toComplex, h', if_false, allocObj_apply]
  have e : (fun j : Fin n => atc x j) = x := funext fun j => dif_pos j.2
  show Res.ok _ (st.alloc (.cvec n fun i => crnd A (idft (fun j : Fin n => atc x j) i))) = _
  rw [e]

theorem np_real {x : Fin n → ℂ} (h : st.heap l = some (.cvec n x)) : builtin A "np.real" [.ref l] st = .ok (.ref st.next) (st.alloc (.vec n fun i => (x i).re)) := by
  show builtinSpectral A "np.real" [.ref l] st = _
  simp only [builtinSpectral, bind_apply, getObj_apply h, rbind_ok, allocObj_apply]

@[py] theorem np_abs (v : Val) : builtin A "np.abs" [v] st = mapNum A (fun x => |x|) v st := rfl

theorem np_log_vec {x : Vec n} (h : st.heap l = some (.vec n x)) (hx : ∀ i, 0 < x i) : npLogOf A (.ref l) st = .ok (.ref st.next) (st.alloc (.vec n fun i => A.rnd (Real.log (x i)))) := by
  simp only [npLogOf, bind_apply, getObj_apply h, rbind_ok, hx, implies_true, if_true, allocObj_apply]

theorem mul_pi (a : ℤ) : binOp A .mul (.int a) (.glob "np.pi") st = .ok (.num (A.mul (A.rnd a) (A.rnd Real.pi))) st := by
  show (numOp A .mul (.int a) (.glob "np.pi") : M W Val) st = _
  simp only [numOp, if_true, bind_apply, floatOp_mul, rbind_ok, pure_apply]

theorem div_int (a b : ℤ) (hb : b ≠ 0) : binOp A .div (.int a) (.int b) st = .ok (.num (A.rnd ((a : ℝ) / b))) st := by
  show (numOp A .div (.int a) (.int b) : M W Val) st = _
  simp only [numOp, intOp, hb, pure_apply, ite_st, if_false]

theorem mul_cplx_vec {x : Vec n} (h : st.heap l = some (.vec n x)) (z : ℂ) :
    binOp Arith.exact .mul (.cplx z) (.ref l) st = .ok (.ref st.next) (st.alloc (.cvec n fun i => z * (x i : ℂ))) := by
  rw [binOp_arr .mul rfl]
  simp only [operand, bind_apply, pure_apply, rbind_ok, getObj_apply h, arrOp, cvecOp, allocObj_apply]
  congr 3

theorem mul_cplx_cvec {x : Fin n → ℂ} (h : st.heap l = some (.cvec n x)) (z : ℂ) :
    binOp Arith.exact .mul (.cplx z) (.ref l) st = .ok (.ref st.next) (st.alloc (.cvec n fun i => z * x i)) := by
  rw [binOp_arr .mul rfl]
  simp only [operand, bind_apply, pure_apply, rbind_ok, getObj_apply h, arrOp, cvecOp, allocObj_apply]
  congr 3

theorem add_vec_cvec (x : Vec n) (y : Fin n → ℂ) :
    arr2 Arith.exact .add (some (.vec n x)) (some (.cvec n y)) st = .ok (.ref st.next) (st.alloc (.cvec n fun i => (x i : ℂ) + y i)) := by
  simp only [arr2, arrVal, bind_apply, arrOp, cvecOp, dite_true, rbind_ok, pure_apply, allocObj_apply]
  congr 3

theorem matmul_rect {r c : ℕ} (x : Fin r → Fin c → ℝ) (y : Vec n) (hr : r ≠ n) (hc : c = n) :
    arr2 Arith.exact .matmul (some (.mat r c x)) (some (.vec n y)) st = .ok (.ref st.next) (st.alloc (.vec r fun i => ∑ j : Fin n, x i (j.cast hc.symm) * y j)) := by
  subst hc
  simp only [arr2, arrVal, bind_apply, arrOp, hr, false_and, dite_false, dite_true, rbind_ok, pure_apply, allocObj_apply]
  rfl

end

/-- What a run ends with: the result in a new array, or an exception. In both cases nothing that was there before has changed. -/
def NewVec (st0 : St W) (r : Except Fault (Vec n)) (res : Res W Val) : Prop :=
  match r with
  | .error f => ∃ st', res = .exc (excOf f) st' ∧ Frame (fun _ => False) st0 st'
  | .ok x => ∃ st' l, res = .ok (.ref l) st' ∧ st0.next ≤ l ∧ l < st'.next ∧ st'.heap l = some (.vec n x) ∧ Frame (fun _ => False) st0 st'

/-- `inverse_spectral_fact(h)`. -/
theorem call_inverse_spectral_fact {st : St W} {l : ℕ} {h : Vec n} (hl : st.heap l = some (.vec n h)) (lt : l < st.next) :
    NewVec st (inverseSpectralFact h) (call (mach Arith.exact ext) (fuel + 2) (.glob "inverse_spectral_fact") [.ref l] st) := by
  rw [call_fun fun_inverse_spectral_fact rfl]
  simp only [Source.SpectralFact.inverse_spectral_fact, py, hl, item_rev hl]
  rw [np_convolve (n := n) (m := n) (x := h) (y := fun i => h i.rev) (by simp only [py, lt_ne lt, if_false, hl]) (by simp only [py, if_true])]
  by_cases h0 : n = 0
  · simp only [h0, true_or, if_true, py, inverseSpectralFact]
    exact ⟨_, rfl, (Frame.refl _ st).alloc _⟩
  simp only [h0, or_self, if_false, py, inverseSpectralFact]
  have e : (n : ℤ) - 1 = ((n - 1 : ℕ) : ℤ) := by omega
  have hh : ∀ o o' : Obj, ((st.alloc o).alloc o').heap (st.next + 1) = some o' := fun o o' => by simp only [py]
  rw [e, item_from (hh _ _) (by omega)]
  refine ⟨_, _, rfl, by simp only [py]; omega, by simp only [py]; omega, ?_, (((Frame.refl _ st).alloc _).alloc _).alloc _⟩
  rw [heap_alloc_self]
  congr 1
  refine vec_len_cast (by omega) fun i => ?_
  have : n - 1 + (i : ℕ) < n + n - 1 := by have := i.2; omega
  simp only [at1, this, dite_true, npConvolve, Fin.val_cast]
  rfl

/-- The statements of `spectral_fact` inside `try`. -/
def sfBody : List PStmt :=
  match Source.SpectralFact.spectral_fact.body with
  | [.try_ b _] => b
  | _ => []

/-- Statement `k` of them. -/
def sfS (k : ℕ) : PStmt := sfBody.getD k .pass

/-- Run a statement of `spectral_fact`. -/
noncomputable def sfRun (ext : ℕ → String → List Val → M W Val) (fuel : ℕ) (k : ℕ) (env : Env) (st : St W) : Res W Flow :=
  exec (mach Arith.exact ext) (call (mach Arith.exact ext) (fuel + 1)) (sfS k) env st

/-- The statement binds a name to a new array and changes nothing else. -/
def Adds (env : Env) (x : String) (o : Obj) (st : St W) (res : Res W Flow) : Prop :=
  ∃ st' l, res = .ok (.next (env.set x (.ref l))) st' ∧ st.next ≤ l ∧ l < st'.next ∧ st'.heap l = some o ∧ Frame (fun _ => False) st st'

section
variable {env : Env} {st : St W} {N d : ℕ}

theorem sf_w (hm : env "m" = some (.int (N : ℕ))) (hnp : env "np" = none) :
    Adds env "w" (.vec N fun i => 2 * Real.pi * (i : ℕ) / N) st (sfRun ext fuel 5 env st) := by
  refine ⟨_, st.next, ?_, le_rfl, ?_, heap_alloc_self _, (Frame.refl _ st).alloc _⟩
  swap
  · simp only [py]; omega
  simp only [sfRun, sfS, sfBody, Source.SpectralFact.spectral_fact, List.getD_cons_succ, List.getD_cons_zero, py, hm, hnp, mul_pi]
  rw [np_linspace_open]
  simp only [py]
  congr 3
  funext i
  simp only [Arith.add, Arith.mul, Arith.div, Arith.sub, Arith.exact]
  push_cast
  ring

theorem sf_Bn {w : Vec N} {l : ℕ} (hw : env "w" = some (.ref l)) (hl : st.heap l = some (.vec N w)) (lt : l < st.next) (hn : env "n" = some (.int ((d + 1 : ℕ) : ℤ))) (hnp : env "np" = none) :
    Adds env "Bn" (.mat N d fun i j => w i * ((j : ℕ) + 1 : ℝ)) st (sfRun ext fuel 6 env st) := by
  refine ⟨_, st.next + 1, ?_, by omega, ?_, ?_, ((Frame.refl _ st).alloc (.vec d fun i => ((i + 1 : ℕ) : ℝ))).alloc (.mat N d fun i j => w i * ((j : ℕ) + 1 : ℝ))⟩
  · simp only [sfRun, sfS, sfBody, Source.SpectralFact.spectral_fact, List.getD_cons_succ, List.getD_cons_zero, py, hw, hn, hnp, builtin_arange_one, outerArr_vec, lt_ne lt, hl, if_false]
    congr 3
    funext i j
    simp [Arith.mul, Arith.exact]
  · simp only [py]; omega
  · simp only [py]

theorem sf_An {B : Fin N → Fin d → ℝ} {l : ℕ} (hB : env "Bn" = some (.ref l)) (hl : st.heap l = some (.mat N d B)) (lt : l < st.next) (hnp : env "np" = none) :
    Adds env "An" (.mat N d fun i j => 2 * Real.cos (B i j)) st (sfRun ext fuel 7 env st) := by
  refine ⟨_, st.next + 1, ?_, by omega, ?_, ?_, ((Frame.refl _ st).alloc (.mat N d fun i j => Real.cos (B i j))).alloc (.mat N d fun i j => 2 * Real.cos (B i j))⟩
  · simp only [sfRun, sfS, sfBody, Source.SpectralFact.spectral_fact, List.getD_cons_succ, List.getD_cons_zero, py, hB, hnp, binOp_two_ref, hl]
    rfl
  · simp only [py]; omega
  · simp only [py]

theorem sf_R {a : Fin N → Fin d → ℝ} {r : Vec (d + 1)} {l k : ℕ} (hA : env "An" = some (.ref l)) (hl : st.heap l = some (.mat N d a)) (lt : l < st.next)
    (hr : env "r" = some (.ref k)) (hk : st.heap k = some (.vec (d + 1) r)) (kt : k < st.next) (hm : env "m" = some (.int (N : ℕ))) (hnp : env "np" = none) (hN : N ≠ d + 1) :
    Adds env "R" (.vec N fun i => ∑ j : Fin (d + 1), (Fin.cons 1 (a i) : Fin (d + 1) → ℝ) j * r j) st (sfRun ext fuel 8 env st) := by
  have h1 : (st.alloc (.mat N 1 fun _ _ => 1)).heap st.next = some (.mat N 1 fun _ _ => 1) := heap_alloc_self _
  have h2 : (st.alloc (.mat N 1 fun _ _ => 1)).heap l = some (.mat N d a) := by simp only [py, lt_ne lt, if_false, hl]
  refine ⟨_, st.next + 2, ?_, by omega, ?_, ?_, (((Frame.refl _ st).alloc (.mat N 1 fun _ _ => 1)).alloc (.mat N (1 + d) (beside (fun _ _ => 1) a))).alloc
    (.vec N fun i => ∑ j : Fin (d + 1), (Fin.cons 1 (a i) : Fin (d + 1) → ℝ) j * r j)⟩
  · simp only [sfRun, sfS, sfBody, Source.SpectralFact.spectral_fact, List.getD_cons_succ, List.getD_cons_zero, py, hA, hr, hm, hnp, builtin_ones_nat, np_hstack h1 h2, lt_ne kt, lt_ne_add kt, if_false, hk]
    rw [matmul_rect (n := d + 1) (y := r) (r := N) (c := 1 + d) (x := beside (fun _ _ => 1) a) hN (by omega)]
    simp only [py]
    congr 3
    funext i
    refine Finset.sum_congr rfl fun j _ => ?_
    congr 1
    refine Fin.cases ?_ (fun j => ?_) j
    · exact Fin.append_left (fun _ : Fin 1 => (1 : ℝ)) (a i) 0
    · have e : ∀ h, Fin.cast h j.succ = Fin.natAdd 1 j := fun h => by ext; simp; omega
      rw [e]
      exact Fin.append_right (fun _ : Fin 1 => (1 : ℝ)) (a i) j
  · simp only [py]; omega
  · simp only [py]

theorem sf_min {R : Vec N} {l : ℕ} (hR : env "R" = some (.ref l)) (hl : st.heap l = some (.vec N R)) (h0 : 0 < N) (hnp : env "np" = none) :
    sfRun ext fuel 9 env st = .ok (.next (env.set "min_val" (.num (Finset.univ.inf' ⟨⟨0, h0⟩, Finset.mem_univ _⟩ R)))) st := by
  simp only [sfRun, sfS, sfBody, Source.SpectralFact.spectral_fact, List.getD_cons_succ, List.getD_cons_zero, py, hR, hnp, np_min hl h0]

theorem sf_check {R : Vec N} {l : ℕ} {x : ℝ} (hR : env "R" = some (.ref l)) (hl : st.heap l = some (.vec N R)) (hx : env "min_val" = some (.num x)) (hnp : env "np" = none) :
    sfRun ext fuel 10 env st = if x ≤ 0 then if -(1 / 10000) < x then .ok (.next (env.set "R" (.ref st.next))) (st.alloc (.vec N fun i => max (R i) (1 / 10 ^ 10)))
      else .exc "RuntimeError" st else .ok (.next env) st := by
  simp only [sfRun, sfS, sfBody, Source.SpectralFact.spectral_fact, List.getD_cons_succ, List.getD_cons_zero, py, hR, hnp, hx, np_maximum hl]
  have hc : cmpOp .le (.num x) (.int 0) st = .ok (.bool (decide (x ≤ 0))) st := by
    have : Val.toReal (.int 0) = some 0 := by simp [Val.toReal]
    simp only [cmpOp, toReal_num, this, ordOp]; rfl
  have h4 : literal Arith.exact 1 4 false = 1 / 10000 := by norm_num [literal, Arith.exact]
  have h10 : literal Arith.exact 1 10 false = 1 / 10 ^ 10 := by norm_num [literal, Arith.exact]
  simp only [hc, py]
  by_cases h : x ≤ 0
  · by_cases h' : -(1 / 10000) < x
    · have h'' : x > -(1 / 10000) := h'
      simp only [h, h', h'', h4, h10, hx, hR, hnp, np_maximum hl, decide_true, if_true, py]
    · have h'' : ¬ x > -(1 / 10000) := h'
      simp only [h, h', h'', h4, hx, decide_true, decide_false, if_true, if_false, py]
  · simp only [h, decide_false, if_false, py]

theorem sf_alpha {R : Vec N} {l : ℕ} (hR : env "R" = some (.ref l)) (hl : st.heap l = some (.vec N R)) (hp : ∀ i, 0 < R i) (hnp : env "np" = none) :
    Adds env "alpha" (.vec N fun i => 1 / 2 * Real.log |R i|) st (sfRun ext fuel 11 env st) := by
  refine ⟨_, st.next + 2, ?_, by omega, ?_, ?_, (((Frame.refl _ st).alloc (.vec N fun i => |R i|)).alloc (.vec N fun i => Real.log |R i|)).alloc (.vec N fun i => 1 / 2 * Real.log |R i|)⟩
  · simp only [sfRun, sfS, sfBody, Source.SpectralFact.spectral_fact, List.getD_cons_succ, List.getD_cons_zero, py, hR, hnp, hl]
    rw [np_log_vec (heap_alloc_self _) fun i => abs_pos.2 (hp i).ne']
    have h5 : literal Arith.exact 5 1 false = 1 / 2 := by norm_num [literal, Arith.exact]
    simp only [py, h5]
    rfl
  · simp only [py]; omega
  · simp only [py]

theorem sf_fft {x : Vec N} {l : ℕ} (hx : env "alpha" = some (.ref l)) (hl : st.heap l = some (.vec N x)) (h0 : N ≠ 0) (hnp : env "np" = none) :
    Adds env "alphatmp" (.cvec N (dft fun j => (x j : ℂ))) st (sfRun ext fuel 12 env st) := by
  refine ⟨_, st.next, ?_, le_rfl, ?_, heap_alloc_self _, (Frame.refl _ st).alloc _⟩
  · simp only [sfRun, sfS, sfBody, Source.SpectralFact.spectral_fact, List.getD_cons_succ, List.getD_cons_zero, py, hx, hnp, np_fft hl h0]
    rfl
  · simp only [py]; omega

theorem sf_ind (hm : env "m" = some (.int ((100 * N : ℕ) : ℤ))) (hi : env "int" = none) : sfRun ext fuel 13 env st = .ok (.next (env.set "ind" (.int ((50 * N : ℕ) : ℤ)))) st := by
  simp only [sfRun, sfS, sfBody, Source.SpectralFact.spectral_fact, List.getD_cons_succ, List.getD_cons_zero, py, hm, hi]
  rw [div_int _ _ (by norm_num)]
  simp only [py]
  have e : Arith.exact.rnd ((((100 * N : ℕ) : ℤ) : ℝ) / ((2 : ℤ) : ℝ)) = ((50 * N : ℕ) : ℝ) := by
    show (((100 * N : ℕ) : ℤ) : ℝ) / ((2 : ℤ) : ℝ) = _
    push_cast; ring
  rw [e, if_pos (Nat.cast_nonneg _), Int.floor_natCast]

theorem sf_negate {x : Fin N → ℂ} {a l : ℕ} (hx : env "alphatmp" = some (.ref l)) (hl : st.heap l = some (.cvec N x)) (lt : l < st.next) (hi : env "ind" = some (.int (a : ℤ)))
    (hm : env "m" = some (.int (N : ℤ))) (ha : a ≤ N) :
    ∃ st', sfRun ext fuel 14 env st = .ok (.next env) st' ∧ st'.heap l = some (.cvec N fun i => if a ≤ (i : ℕ) ∧ (i : ℕ) < N then -x i else x i) ∧ st.next ≤ st'.next
      ∧ Frame (fun k => k = l) st st' := by
  simp only [sfRun, sfS, sfBody, Source.SpectralFact.spectral_fact, List.getD_cons_succ, List.getD_cons_zero, py, hx, hi, hm, toIdx_between, citem_between hl ha le_rfl]
  rw [set_between (n := N) (m := N) (x := x) (a := a) (y := -fun i : Fin (N - a) => atc x (a + i)) (by simp only [py, lt_ne lt, lt_ne_add lt, if_false, hl]) (by simp only [py]) ha le_rfl]
  refine ⟨_, rfl, ?_, ?_, (((Frame.refl _ st).alloc _).alloc _).put _ (.inl rfl)⟩
  · rw [heap_put_self]
    congr 2
    funext i
    by_cases h : a ≤ (i : ℕ)
    · have h1 : (i : ℕ) - a < N - a := by have := i.2; omega
      have h2 : a + ((i : ℕ) - a) = i := by omega
      simp only [h, i.2, and_self, if_true, atc, h1, dite_true, Pi.neg_apply, h2]
    · simp only [h, false_and, if_false]
  · simp only [py]; omega

theorem sf_zero {x : Fin N → ℂ} {l : ℕ} (hx : env "alphatmp" = some (.ref l)) (hl : st.heap l = some (.cvec N x)) (h0 : 0 < N) :
    ∃ st', sfRun ext fuel 15 env st = .ok (.next env) st' ∧ st'.heap l = some (.cvec N fun i => if (i : ℕ) = 0 then 0 else x i) ∧ Frame (fun k => k = l) st st' := by
  refine ⟨st.put l (.cvec N fun i => if (i : ℕ) = 0 then 0 else x i), ?_, heap_put_self _ _, (Frame.refl _ st).put _ (.inl rfl)⟩
  simp only [sfRun, sfS, sfBody, Source.SpectralFact.spectral_fact, List.getD_cons_succ, List.getD_cons_zero, py, hx]
  have := set_centry (A := Arith.exact) (a := 0) hl h0 0
  simp only [Nat.cast_zero] at this
  simp only [this, py]
  simp [Arith.exact]

theorem sf_half {x : Fin N → ℂ} {a l : ℕ} (hx : env "alphatmp" = some (.ref l)) (hl : st.heap l = some (.cvec N x)) (hi : env "ind" = some (.int (a : ℤ))) (h0 : a < N) :
    ∃ st', sfRun ext fuel 16 env st = .ok (.next env) st' ∧ st'.heap l = some (.cvec N fun i => if (i : ℕ) = a then 0 else x i) ∧ Frame (fun k => k = l) st st' := by
  refine ⟨st.put l (.cvec N fun i => if (i : ℕ) = a then 0 else x i), ?_, heap_put_self _ _, (Frame.refl _ st).put _ (.inl rfl)⟩
  simp only [sfRun, sfS, sfBody, Source.SpectralFact.spectral_fact, List.getD_cons_succ, List.getD_cons_zero, py, hx, hi]
  simp only [set_centry hl h0, py]
  simp [Arith.exact]

theorem sf_phi {x : Fin N → ℂ} {l : ℕ} (hx : env "alphatmp" = some (.ref l)) (hl : st.heap l = some (.cvec N x)) (h0 : N ≠ 0) (hnp : env "np" = none) :
    Adds env "phi" (.vec N fun i => (idft (fun j => Complex.I * x j) i).re) st (sfRun ext fuel 17 env st) := by
  refine ⟨_, st.next + 2, ?_, by omega, ?_, ?_, (((Frame.refl _ st).alloc (.cvec N fun j => Complex.I * x j)).alloc (.cvec N (idft (fun j => Complex.I * x j)))).alloc
    (.vec N fun i => (idft (fun j => Complex.I * x j) i).re)⟩
  · simp only [sfRun, sfS, sfBody, Source.SpectralFact.spectral_fact, List.getD_cons_succ, List.getD_cons_zero, py, hx, hnp, mul_cplx_cvec hl]
    have hI : (⟨0, literal Arith.exact 1 0 false⟩ : ℂ) = Complex.I := by apply Complex.ext <;> norm_num [literal, Arith.exact]
    rw [hI, np_ifft (heap_alloc_self _) h0]
    simp only [py]
    rw [np_real (by simp only [py]; rfl)]
    simp only [py]
    rfl
  · simp only [py]; omega
  · simp only [py]

theorem sf_index (hm : env "m" = some (.int ((100 * N : ℕ) : ℤ))) (hf : env "mult_factor" = some (.int 100)) (hi : env "int" = none) (hnp : env "np" = none) :
    Adds env "index" (.ivec N fun i => ((100 * i : ℕ) : ℤ)) st (sfRun ext fuel 18 env st) := by
  refine ⟨_, st.next, ?_, le_rfl, ?_, heap_alloc_self _, (Frame.refl _ st).alloc _⟩
  · simp only [sfRun, sfS, sfBody, Source.SpectralFact.spectral_fact, List.getD_cons_succ, List.getD_cons_zero, py, hm, hi, hf, hnp]
    have := np_arange_step (A := Arith.exact) (st := st) N 100 (by norm_num)
    simp only [Nat.cast_ofNat] at this
    simp only [this, py]
  · simp only [py]; omega

theorem sf_alpha1 {x : Vec (100 * N)} {k l : ℕ} (hx : env "alpha" = some (.ref l)) (hl : st.heap l = some (.vec (100 * N) x)) (hi : env "index" = some (.ref k))
    (hk : st.heap k = some (.ivec N fun i => ((100 * i : ℕ) : ℤ))) :
    Adds env "alpha1" (.vec N fun i => x ⟨100 * i, by omega⟩) st (sfRun ext fuel 19 env st) := by
  refine ⟨_, st.next, ?_, le_rfl, ?_, heap_alloc_self _, (Frame.refl _ st).alloc _⟩
  · simp only [sfRun, sfS, sfBody, Source.SpectralFact.spectral_fact, List.getD_cons_succ, List.getD_cons_zero, py, hx, hi, toIdx_many hk, item_many hl (fun i : Fin N => 100 * (i : ℕ)) (fun _ => rfl) (fun i => by omega)]
  · simp only [py]; omega

theorem sf_phi1 {x : Vec (100 * N)} {k l : ℕ} (hx : env "phi" = some (.ref l)) (hl : st.heap l = some (.vec (100 * N) x)) (hi : env "index" = some (.ref k))
    (hk : st.heap k = some (.ivec N fun i => ((100 * i : ℕ) : ℤ))) :
    Adds env "phi1" (.vec N fun i => x ⟨100 * i, by omega⟩) st (sfRun ext fuel 20 env st) := by
  refine ⟨_, st.next, ?_, le_rfl, ?_, heap_alloc_self _, (Frame.refl _ st).alloc _⟩
  · simp only [sfRun, sfS, sfBody, Source.SpectralFact.spectral_fact, List.getD_cons_succ, List.getD_cons_zero, py, hx, hi, toIdx_many hk, item_many hl (fun i : Fin N => 100 * (i : ℕ)) (fun _ => rfl) (fun i => by omega)]
  · simp only [py]; omega

theorem sf_h {x y : Vec N} {k l : ℕ} (hx : env "alpha1" = some (.ref l)) (hl : st.heap l = some (.vec N x)) (lt : l < st.next) (hy : env "phi1" = some (.ref k))
    (hk : st.heap k = some (.vec N y)) (kt : k < st.next) (hn : env "n" = some (.int (N : ℤ))) (h0 : N ≠ 0) (hnp : env "np" = none) :
    Adds env "h" (.vec N fun i => (idft (fun j => Complex.exp ((x j : ℂ) + Complex.I * (y j : ℂ))) i).re) st (sfRun ext fuel 21 env st) := by
  refine ⟨_, st.next + 4, ?_, by omega, ?_, ?_, (((((Frame.refl _ st).alloc (.cvec N fun j => Complex.I * (y j : ℂ))).alloc (.cvec N fun j => (x j : ℂ) + Complex.I * (y j : ℂ))).alloc
    (.cvec N fun j => Complex.exp ((x j : ℂ) + Complex.I * (y j : ℂ)))).alloc (.cvec N (idft fun j => Complex.exp ((x j : ℂ) + Complex.I * (y j : ℂ))))).alloc
    (.vec N fun i => (idft (fun j => Complex.exp ((x j : ℂ) + Complex.I * (y j : ℂ))) i).re)⟩
  · simp only [sfRun, sfS, sfBody, Source.SpectralFact.spectral_fact, List.getD_cons_succ, List.getD_cons_zero, py, hx, hy, hn, hnp, mul_cplx_vec hk]
    have hI : (⟨0, literal Arith.exact 1 0 false⟩ : ℂ) = Complex.I := by apply Complex.ext <;> norm_num [literal, Arith.exact]
    simp only [hI, lt_ne lt, if_false, hl, add_vec_cvec, py, hn, hnp]
    rw [np_ifft_len (by simp only [py]; rfl) h0]
    simp only [py]
    rw [np_real (by simp only [py]; rfl)]
    simp only [py]
    rfl
  · simp only [py]; omega
  · simp only [py]

theorem sf_ret {v : Val} (hh : env "h" = some v) : sfRun ext fuel 22 env st = .ok (.ret v) st := by
  simp only [sfRun, sfS, sfBody, Source.SpectralFact.spectral_fact, List.getD_cons_succ, List.getD_cons_zero, py, hh]

theorem sf_finite {x : Vec N} {l : ℕ} (hr : env "r" = some (.ref l)) (hl : st.heap l = some (.vec N x)) (hnp : env "np" = none) :
    sfRun ext fuel 1 env st = .ok (.next env) (st.alloc (.mask N fun _ => True)) := by
  simp only [sfRun, sfS, sfBody, Source.SpectralFact.spectral_fact, List.getD_cons_succ, List.getD_cons_zero, py, hr, hnp, np_isfinite hl]
  simp only [implies_true, decide_true, Bool.true_eq_false, if_false]

theorem sf_empty {x : Vec N} {l : ℕ} (hr : env "r" = some (.ref l)) (hl : st.heap l = some (.vec N x)) (hn : env "len" = none) :
    sfRun ext fuel 0 env st = if N = 0 then .exc "ValueError" st else .ok (.next env) st := by
  simp only [sfRun, sfS, sfBody, Source.SpectralFact.spectral_fact, List.getD_cons_succ, List.getD_cons_zero, py, hr, hn, hl]
  simp only [Nat.cast_eq_zero]

theorem sf_n {x : Vec N} {l : ℕ} (hr : env "r" = some (.ref l)) (hl : st.heap l = some (.vec N x)) (hn : env "len" = none) :
    sfRun ext fuel 2 env st = .ok (.next (env.set "n" (.int (N : ℤ)))) st := by
  simp only [sfRun, sfS, sfBody, Source.SpectralFact.spectral_fact, List.getD_cons_succ, List.getD_cons_zero, py, hr, hn, hl]

theorem sf_factor : sfRun ext fuel 3 env st = .ok (.next (env.set "mult_factor" (.int 100))) st := by
  simp only [sfRun, sfS, sfBody, Source.SpectralFact.spectral_fact, List.getD_cons_succ, List.getD_cons_zero, py, Nat.cast_ofNat]

theorem sf_m (hn : env "n" = some (.int (N : ℤ))) (hf : env "mult_factor" = some (.int 100)) :
    sfRun ext fuel 4 env st = .ok (.next (env.set "m" (.int ((100 * N : ℕ) : ℤ)))) st := by
  simp only [sfRun, sfS, sfBody, Source.SpectralFact.spectral_fact, List.getD_cons_succ, List.getD_cons_zero, py, hn, hf]
  rw [Nat.cast_mul]
  rfl

end

theorem dft_npFft (f : ℕ → ℂ) (k : Fin n) : dft (fun j : Fin n => f j) k = npFft n f k := by
  simp only [dft, npFft, Finset.sum_range]

theorem idft_npIfft (f : ℕ → ℂ) (k : Fin n) : idft (fun j : Fin n => f j) k = npIfft n f k := by
  simp only [idft, npIfft, Finset.sum_range]

theorem sfBody_eq : sfBody = [sfS 0, sfS 1, sfS 2, sfS 3, sfS 4, sfS 5, sfS 6, sfS 7, sfS 8, sfS 9, sfS 10, sfS 11, sfS 12, sfS 13, sfS 14, sfS 15, sfS 16, sfS 17, sfS 18,
    sfS 19, sfS 20, sfS 21, sfS 22] := rfl

theorem sf_run (k : ℕ) (env : Env) (st : St W) : exec (mach Arith.exact ext) (call (mach Arith.exact ext) (fuel + 1)) (sfS k) env st = sfRun ext fuel k env st := rfl

/-- From the statement for `alpha` on. -/
theorem sf_tail {env : Env} {st : St W} {R : ℕ → ℝ} {l : ℕ} (hn0 : n ≠ 0) (hR : env "R" = some (.ref l)) (hl : st.heap l = some (.vec (sfLen n) fun i => R i)) (lt : l < st.next)
    (hp : ∀ j < sfLen n, 0 < R j) (hn : env "n" = some (.int (n : ℤ))) (hm : env "m" = some (.int (sfLen n : ℕ))) (hf : env "mult_factor" = some (.int 100)) (hi : env "int" = none)
    (hnp : env "np" = none) :
    ∃ st' k, execs (mach Arith.exact ext) (call (mach Arith.exact ext) (fuel + 1))
        [sfS 11, sfS 12, sfS 13, sfS 14, sfS 15, sfS 16, sfS 17, sfS 18, sfS 19, sfS 20, sfS 21, sfS 22] env st = .ok (.ret (.ref k)) st' ∧ st.next ≤ k ∧ k < st'.next
      ∧ st'.heap k = some (.vec n fun t => (npIfft n (sfSpectrum n R) t).re) ∧ Frame (fun _ => False) st st' := by
  have hN : sfLen n ≠ 0 := by unfold sfLen; omega
  obtain ⟨s1, k1, e1, a1, b1, c1, f1⟩ := sf_alpha (ext := ext) (fuel := fuel) hR hl (fun i => hp i i.2) hnp
  set v1 := env.set "alpha" (.ref k1) with hv1
  obtain ⟨s2, k2, e2, a2, b2, c2, f2⟩ := sf_fft (ext := ext) (fuel := fuel) (env := v1) (by simp only [hv1, py]) c1 hN (by simp only [hv1, py, hnp])
  set v2 := v1.set "alphatmp" (.ref k2) with hv2
  have e3 := sf_ind (ext := ext) (fuel := fuel) (env := v2) (st := s2) (N := n) (by simp only [hv2, hv1, py, hm]; rfl) (by simp only [hv2, hv1, py, hi])
  set v3 := v2.set "ind" (.int ((50 * n : ℕ) : ℤ)) with hv3
  have hx : v3 "alphatmp" = some (.ref k2) := by simp only [hv3, hv2, py]
  have hind : v3 "ind" = some (.int ((50 * n : ℕ) : ℤ)) := by simp only [hv3, py]
  have hm3 : v3 "m" = some (.int (sfLen n : ℕ)) := by simp only [hv3, hv2, hv1, py, hm]
  have hnp3 : v3 "np" = none := by simp only [hv3, hv2, hv1, py, hnp]
  obtain ⟨s4, e4, c4, n4, f4⟩ := sf_negate (ext := ext) (fuel := fuel) hx c2 b2 hind hm3 (by unfold sfLen; omega)
  obtain ⟨s5, e5, c5, f5⟩ := sf_zero (ext := ext) (fuel := fuel) hx c4 (Nat.pos_of_ne_zero hN)
  obtain ⟨s6, e6, c6, f6⟩ := sf_half (ext := ext) (fuel := fuel) (st := s5) hx c5 hind (by unfold sfLen; omega)
  obtain ⟨s7, k7, e7, a7, b7, c7, f7⟩ := sf_phi (ext := ext) (fuel := fuel) (st := s6) hx c6 hN hnp3
  set v7 := v3.set "phi" (.ref k7) with hv7
  obtain ⟨s8, k8, e8, a8, b8, c8, f8⟩ := sf_index (ext := ext) (fuel := fuel) (env := v7) (st := s7) (N := n) (by simp only [hv7, py, hm3]; rfl)
    (by simp only [hv7, hv3, hv2, hv1, py, hf]) (by simp only [hv7, hv3, hv2, hv1, py, hi]) (by simp only [hv7, py, hnp3])
  set v8 := v7.set "index" (.ref k8) with hv8
  have w1 : k1 < s2.next := b1.trans_le f2.next
  have w4 : k1 < s4.next := w1.trans_le f4.next
  have w5 : k1 < s5.next := w4.trans_le f5.next
  have w6 : k1 < s6.next := w5.trans_le f6.next
  have w7 : k1 < s7.next := w6.trans_le f7.next
  have ne : ¬ k1 = k2 := by omega
  have d7 : s8.heap k1 = some (.vec (sfLen n) fun i => 1 / 2 * Real.log |R i|) := by
    rw [f8.same k1 w7 not_false, f7.same k1 w6 not_false, f6.same k1 w5 ne, f5.same k1 w4 ne, f4.same k1 w1 ne, f2.same k1 b1 not_false, c1]
  have d8 : s8.heap k7 = _ := (f8.same k7 b7 not_false).trans c7
  obtain ⟨s9, k9, e9, a9, b9, c9, f9⟩ := sf_alpha1 (ext := ext) (fuel := fuel) (env := v8) (by simp only [hv8, hv7, hv3, hv2, hv1, py]) d7 (by simp only [hv8, py]) c8
  set v9 := v8.set "alpha1" (.ref k9) with hv9
  obtain ⟨s10, k10, e10, a10, b10, c10, f10⟩ := sf_phi1 (ext := ext) (fuel := fuel) (env := v9) (by simp only [hv9, hv8, hv7, py]) ((f9.same k7 (b7.trans_le f8.next) not_false).trans d8)
    (by simp only [hv9, hv8, py]) ((f9.same k8 b8 not_false).trans c8)
  set v10 := v9.set "phi1" (.ref k10) with hv10
  obtain ⟨s11, k11, e11, a11, b11, c11, f11⟩ := sf_h (ext := ext) (fuel := fuel) (env := v10) (by simp only [hv10, hv9, py]) ((f10.same k9 b9 not_false).trans c9) (b9.trans_le f10.next)
    (by simp only [hv10, py]) c10 b10 (by simp only [hv10, hv9, hv8, hv7, hv3, hv2, hv1, py, hn]) hn0 (by simp only [hv10, hv9, hv8, py]; simp only [hv7, py, hnp3])
  have e12 := sf_ret (ext := ext) (fuel := fuel) (st := s11) (env := v10.set "h" (.ref k11)) (v := .ref k11) (by simp only [py])
  refine ⟨s11, k11, ?_, ?_, b11, ?_, ?_⟩
  · rw [execs_cons, sf_run, e1, rbind_ok, after_next, execs_cons, sf_run, e2, rbind_ok, after_next, execs_cons, sf_run, e3, rbind_ok, after_next, execs_cons, sf_run, e4, rbind_ok, after_next,
      execs_cons, sf_run, e5, rbind_ok, after_next, execs_cons, sf_run, e6, rbind_ok, after_next, execs_cons, sf_run, e7, rbind_ok, after_next, execs_cons, sf_run, e8, rbind_ok, after_next,
      execs_cons, sf_run, e9, rbind_ok, after_next, execs_cons, sf_run, e10, rbind_ok, after_next, execs_cons, sf_run, e11, rbind_ok, after_next, execs_cons, sf_run, e12, rbind_ok, after_ret]
  · have := f1.next; have := f2.next; have := f4.next; have := f5.next; have := f6.next; have := f7.next; have := f8.next; have := f9.next; have := f10.next; omega
  · rw [c11]
    congr 2
    funext t
    rw [← idft_npIfft]
    congr 2
    funext j
    simp only [sfSpectrum, sfAlpha, sfPhi]
    congr 3
    have hj : 100 * (j : ℕ) < sfLen n := by have := j.2; unfold sfLen; omega
    rw [← idft_npIfft (n := sfLen n) (fun k => Complex.I * sfHilbert (sfLen n) (sfAlpha R) k) ⟨100 * (j : ℕ), hj⟩]
    congr 3
    funext k
    simp only [sfHilbert]
    rw [← dft_npFft]
    have : sfLen n / 2 = 50 * n := by unfold sfLen; omega
    rw [this]
    rfl
  · have g : Frame (fun k => k = k2) s2 s6 := (f4.trans f5).trans f6
    have g2 : Frame (fun _ => False) s1 s6 := ⟨f2.next.trans g.next, g.world.trans f2.world, fun k hk _ => (g.same k (hk.trans_le f2.next) (by omega)).trans (f2.same k hk not_false)⟩
    exact (((((f1.trans g2).trans f7).trans f8).trans f9).trans f10).trans f11

/-- The `except` clauses of `spectral_fact`. -/
def sfHandlers : List PStmt :=
  match Source.SpectralFact.spectral_fact.body with
  | [.try_ _ hs] => hs
  | _ => []

theorem sf_handlers (cl : Val → List Val → M W Val) (e : String) (env : Env) (st : St W) :
    handle (mach Arith.exact ext) cl e sfHandlers env st = .exc (if e = "ValueError" ∨ e = "TypeError" then "ValueError" else "RuntimeError") st := by
  show handle (mach Arith.exact ext) cl e
    [.except ["ValueError", "TypeError"] [.raise ((PExpr.name "ValueError").call [PExpr.str "Invalid input for spectral factorization: {e}"])],
      .except ["np.linalg.LinAlgError"] [.raise ((PExpr.name "RuntimeError").call [PExpr.str "Linear algebra error during spectral factorization: {e}"])],
      .except ["Exception"] [.raise ((PExpr.name "RuntimeError").call [PExpr.str "Spectral factorization failed with unexpected error: {e}"])]] env st = _
  by_cases h : e = "ValueError" ∨ e = "TypeError"
  · rw [handle_cons, if_pos, if_pos h]
    · simp only [py]
    · rcases h with rfl | rfl <;> rfl
  · have h1 : (PStmt.except ["ValueError", "TypeError"] [.raise ((PExpr.name "ValueError").call [PExpr.str "Invalid input for spectral factorization: {e}"])]).handles e = false := by
      push Not at h
      simp [PStmt.handles, catches, h.1.symm, h.2.symm]
    have h3 : (PStmt.except ["Exception"] [.raise ((PExpr.name "RuntimeError").call [PExpr.str "Spectral factorization failed with unexpected error: {e}"])]).handles e = true := by
      simp [PStmt.handles, catches]
    rw [handle_cons, h1, if_neg h, if_neg Bool.false_ne_true, handle_cons]
    split_ifs
    · simp only [py]
    · rw [handle_cons, h3, if_pos rfl]
      simp only [py]

theorem sfResponse_cons {d : ℕ} (r : Vec (d + 1)) (i : ℕ) :
    ∑ j : Fin (d + 1), (Fin.cons 1 (fun j : Fin d => 2 * Real.cos (2 * Real.pi * i / ((sfLen (d + 1) : ℕ) : ℝ) * ((j : ℕ) + 1 : ℝ))) : Fin (d + 1) → ℝ) j * r j = sfResponse r i := by
  unfold sfResponse
  refine Finset.sum_congr rfl fun j _ => ?_
  congr 1
  refine Fin.cases ?_ (fun j => ?_) j
  · simp
  · simp

theorem sf_inf {N : ℕ} (h0 : 0 < N) (f : ℕ → ℝ) (h : (Finset.range N).Nonempty) :
    Finset.univ.inf' ⟨⟨0, h0⟩, Finset.mem_univ _⟩ (fun i : Fin N => f i) = (Finset.range N).inf' h f := by
  apply le_antisymm
  · exact Finset.le_inf' _ _ fun j hj => Finset.inf'_le (fun i : Fin N => f i) (Finset.mem_univ ⟨j, Finset.mem_range.1 hj⟩)
  · exact Finset.le_inf' _ _ fun j _ => Finset.inf'_le f (Finset.mem_range.2 j.2)

/-- `spectral_fact(r)` for a one-dimensional array. -/
theorem call_spectral_fact {st : St W} {l : ℕ} {r : Vec n} (hl : st.heap l = some (.vec n r)) (lt : l < st.next) :
    NewVec st (spectralFact r) (call (mach Arith.exact ext) (fuel + 2) (.glob "spectral_fact") [.ref l] st) := by
  rw [call_fun fun_spectral_fact rfl]
  have hb : Source.SpectralFact.spectral_fact.body = [.try_ sfBody sfHandlers] := rfl
  have hps : Source.SpectralFact.spectral_fact.params = ["r"] := rfl
  rw [hb, hps]
  simp only [py, sfBody_eq]
  set v0 := Env.empty.set "r" (.ref l) with hv0
  have hr : v0 "r" = some (.ref l) := by simp only [hv0, py]
  have hlen : v0 "len" = none := by simp only [hv0, py]
  have hnp0 : v0 "np" = none := by simp only [hv0, py]
  have hint : v0 "int" = none := by simp only [hv0, py]
  rw [sf_run, sf_empty hr hl hlen]
  rcases n with _ | d
  · simp only [if_true, py, sf_handlers, true_or, spectralFact, sfChecked, dite_true]
    exact ⟨st, rfl, Frame.refl _ st⟩
  rw [if_neg (Nat.succ_ne_zero d), rbind_ok, after_next, execs_cons, sf_run, sf_finite hr hl hnp0, rbind_ok, after_next]
  set s1 := st.alloc (.mask (d + 1) fun _ => True) with hs1
  have f1 : Frame (fun _ => False) st s1 := (Frame.refl _ st).alloc _
  have l1 : s1.heap l = some (.vec (d + 1) r) := (f1.same l lt not_false).trans hl
  have lt1 : l < s1.next := lt.trans_le f1.next
  rw [execs_cons, sf_run, sf_n hr l1 hlen, rbind_ok, after_next, execs_cons, sf_run, sf_factor, rbind_ok, after_next, execs_cons, sf_run,
    sf_m (N := d + 1) (by simp only [py]) (by simp only [py]), rbind_ok, after_next]
  set v1 := ((v0.set "n" (.int ((d + 1 : ℕ) : ℤ))).set "mult_factor" (.int 100)).set "m" (.int ((100 * (d + 1) : ℕ) : ℤ)) with hv1
  have hr1 : v1 "r" = some (.ref l) := by simp only [hv1, py, hr]
  have hn1 : v1 "n" = some (.int ((d + 1 : ℕ) : ℤ)) := by simp only [hv1, py]
  have hf1 : v1 "mult_factor" = some (.int 100) := by simp only [hv1, py]
  have hm1 : v1 "m" = some (.int ((sfLen (d + 1) : ℕ) : ℤ)) := by simp only [hv1, py]; rfl
  have hnp1 : v1 "np" = none := by simp only [hv1, py, hnp0]
  have hint1 : v1 "int" = none := by simp only [hv1, py, hint]
  obtain ⟨s2, k2, e2, a2, b2, c2, f2⟩ := sf_w (ext := ext) (fuel := fuel) (st := s1) hm1 hnp1
  obtain ⟨s3, k3, e3, a3, b3, c3, f3⟩ := sf_Bn (ext := ext) (fuel := fuel) (d := d) (env := v1.set "w" (.ref k2)) (by simp only [py]) c2 b2 (by simp only [py, hn1]) (by simp only [py, hnp1])
  obtain ⟨s4, k4, e4, a4, b4, c4, f4⟩ := sf_An (ext := ext) (fuel := fuel) (env := (v1.set "w" (.ref k2)).set "Bn" (.ref k3)) (by simp only [py]) c3 b3 (by simp only [py, hnp1])
  set v4 := ((v1.set "w" (.ref k2)).set "Bn" (.ref k3)).set "An" (.ref k4) with hv4
  have fr : Frame (fun _ => False) st s4 := ((f1.trans f2).trans f3).trans f4
  have hN : sfLen (d + 1) ≠ d + 1 := by unfold sfLen; omega
  have hN0 : 0 < sfLen (d + 1) := by unfold sfLen; omega
  obtain ⟨s5, k5, e5, a5, b5, c5, f5⟩ := sf_R (ext := ext) (fuel := fuel) (env := v4) (by simp only [hv4, py]) c4 b4 (by simp only [hv4, py, hr1])
    ((fr.same l lt not_false).trans hl) (lt.trans_le fr.next) (by simp only [hv4, py, hm1]) (by simp only [hv4, py, hnp1]) hN
  simp only [sfResponse_cons] at c5
  set v5 := v4.set "R" (.ref k5) with hv5
  have e6 := sf_min (ext := ext) (fuel := fuel) (env := v5) (by simp only [hv5, py]) c5 hN0 (by simp only [hv5, hv4, py, hnp1])
  have hne : (Finset.range (sfLen (d + 1))).Nonempty := Finset.nonempty_range_iff.2 hN0.ne'
  rw [sf_inf hN0 (sfResponse r) hne] at e6
  set x := (Finset.range (sfLen (d + 1))).inf' hne (sfResponse r) with hx
  set v6 := v5.set "min_val" (.num x) with hv6
  have e7 := sf_check (ext := ext) (fuel := fuel) (env := v6) (st := s5) (x := x) (by simp only [hv6, hv5, py]) c5 (by simp only [hv6, py]) (by simp only [hv6, hv5, hv4, py, hnp1])
  rw [execs_cons, sf_run, e2, rbind_ok, after_next, execs_cons, sf_run, e3, rbind_ok, after_next, execs_cons, sf_run, e4, rbind_ok, after_next, execs_cons, sf_run, e5, rbind_ok,
    after_next, execs_cons, sf_run, e6, rbind_ok, after_next, execs_cons, sf_run, e7]
  have fr5 : Frame (fun _ => False) st s5 := fr.trans f5
  have hck : sfChecked r = if x ≤ 0 then if -(1 / 10000) < x then .ok fun j => max (sfResponse r j) (1 / 10 ^ 10) else .error .runtimeError else .ok (sfResponse r) := by
    unfold sfChecked
    rw [dif_neg (Nat.succ_ne_zero d)]
  have hn6 : v6 "n" = some (.int ((d + 1 : ℕ) : ℤ)) := by simp only [hv6, hv5, hv4, py, hn1]
  have hm6 : v6 "m" = some (.int ((sfLen (d + 1) : ℕ) : ℤ)) := by simp only [hv6, hv5, hv4, py, hm1]
  have hf6 : v6 "mult_factor" = some (.int 100) := by simp only [hv6, hv5, hv4, py, hf1]
  have hint6 : v6 "int" = none := by simp only [hv6, hv5, hv4, py, hint1]
  have hnp6 : v6 "np" = none := by simp only [hv6, hv5, hv4, py, hnp1]
  by_cases h1 : x ≤ 0
  · by_cases h2 : -(1 / 10000) < x
    · rw [if_pos h1, if_pos h2] at hck
      rw [if_pos h1, if_pos h2, rbind_ok, after_next]
      obtain ⟨s8, k8, e8, a8, b8, c8, f8⟩ := sf_tail (ext := ext) (fuel := fuel) (n := d + 1) (env := v6.set "R" (.ref s5.next)) (R := fun j => max (sfResponse r j) (1 / 10 ^ 10))
        (Nat.succ_ne_zero d) (by simp only [py]) (heap_alloc_self (st := s5) (.vec (sfLen (d + 1)) fun i => max (sfResponse r i) (1 / 10 ^ 10))) (by simp only [py]; omega)
        (fun j _ => lt_max_of_lt_right (by norm_num)) (by simp only [py, hn6]) (by simp only [py, hm6]) (by simp only [py, hf6]) (by simp only [py, hint6]) (by simp only [py, hnp6])
      rw [e8]
      simp only [py, spectralFact, hck]
      have fr8 := (fr5.alloc (.vec (sfLen (d + 1)) fun i => max (sfResponse r i) (1 / 10 ^ 10))).trans f8
      exact ⟨s8, k8, rfl, (fr5.next.trans (Nat.le_succ _)).trans a8, b8, c8, fr8⟩
    · rw [if_pos h1, if_neg h2] at hck
      rw [if_pos h1, if_neg h2]
      simp only [py, sf_handlers, spectralFact, hck]
      exact ⟨s5, rfl, fr5⟩
  · rw [if_neg h1] at hck
    rw [if_neg h1, rbind_ok, after_next]
    have hp : ∀ j < sfLen (d + 1), 0 < sfResponse r j := fun j hj => lt_of_lt_of_le (not_le.1 h1) (Finset.inf'_le _ (Finset.mem_range.2 hj))
    obtain ⟨s8, k8, e8, a8, b8, c8, f8⟩ := sf_tail (ext := ext) (fuel := fuel) (n := d + 1) (env := v6) (R := sfResponse r) (Nat.succ_ne_zero d) (by simp only [hv6, hv5, py]) c5 b5 hp
      hn6 hm6 hf6 hint6 hnp6
    rw [e8]
    simp only [py, spectralFact, hck]
    exact ⟨s8, k8, rfl, fr5.next.trans a8, b8, c8, fr5.trans f8⟩

end Ellalgo.Py
