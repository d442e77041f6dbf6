import Verif.Py.Refine.LdltWit

/-! # Rules for lists and comprehensions -/

set_option linter.unusedSimpArgs false

namespace Ellalgo.Py

variable {W α β : Type} {st : St W} {A : Arith} {q : ℕ}

/-! ### Comprehensions -/

/-- A comprehension whose elements change nothing. -/
theorem mapList_same {f : α → M W β} {a : Fin q → α} {b : Fin q → β} (h : ∀ k, f (a k) st = .ok (b k) st) : mapList f (List.ofFn a) st = .ok (List.ofFn b) st := by
  induction q with
  | zero => simp only [List.ofFn_zero]; rfl
  | succ q ih =>
    simp only [List.ofFn_succ, mapList, bind_apply, h, rbind_ok]
    rw [ih fun k => h k.succ]
    rfl

/-- A comprehension whose elements take new locations. -/
theorem mapList_step {f : α → M W β} {a : Fin q → α} {b : Fin q → β} (P : St W → Prop) (h : ∀ k st, P st → ∃ st', f (a k) st = .ok (b k) st' ∧ P st' ∧ Frame (fun _ => False) st st') (hP : P st) :
    ∃ st', mapList f (List.ofFn a) st = .ok (List.ofFn b) st' ∧ P st' ∧ Frame (fun _ => False) st st' := by
  induction q generalizing st with
  | zero => simp only [List.ofFn_zero]; exact ⟨st, rfl, hP, .refl _ _⟩
  | succ q ih =>
    obtain ⟨st1, h1, hP1, hf1⟩ := h 0 st hP
    obtain ⟨st2, h2, hP2, hf2⟩ := ih (fun k => h k.succ) hP1
    refine ⟨st2, ?_, hP2, hf1.trans hf2⟩
    simp only [List.ofFn_succ, mapList, bind_apply, h1, rbind_ok, h2]
    rfl

@[py] theorem bindNames_one (x : String) (v : Val) (env : Env) : bindNames [x] v env st = .ok (env.set x v) st := rfl
@[py] theorem bindNames_two (x y : String) (v w : Val) (env : Env) : bindNames [x, y] (.tuple [v, w]) env st = .ok ((env.set x v).set y w) st := rfl

theorem zipWith_ofFn {γ : Type} (f : α → β → γ) (a : Fin q → α) (b : Fin q → β) : List.zipWith f (List.ofFn a) (List.ofFn b) = List.ofFn fun k => f (a k) (b k) := by
  induction q with
  | zero => simp
  | succ q ih => simp only [List.ofFn_succ, List.zipWith_cons_cons, ih]

@[py] theorem builtin_zip (v w : Val) : builtin A "zip" [v, w] st
    = (iterate v st).bind fun xs => M.bind (iterate w) fun ys => M.pure (.list (List.zipWith (fun a b => .tuple [a, b]) xs ys)) := rfl

theorem ints_ofFn (q : ℕ) : intsFrom 0 q = List.ofFn fun k : Fin q => Val.int ((k : ℕ) : ℤ) := by
  simp [intsFrom, List.ofFn_eq_map, List.map_coe_finRange_eq_range, ← List.map_coe_finRange_eq_range, Function.comp_def]

/-! ### Items of lists -/

theorem item_list (a : Fin q → Val) (k : Fin q) : getItem (.list (List.ofFn a)) [.pos ((k : ℕ) : ℤ)] st = .ok (a k) st := by
  simp only [getItem, List.length_ofFn, normIdx_nat k.2, orIndexError, py]
  simp [py]

theorem item_vec {x : Fin q → ℝ} {l : ℕ} (h : st.heap l = some (.vec q x)) (k : Fin q) : getItem (.ref l) [.pos ((k : ℕ) : ℤ)] st = .ok (.num (x k)) st := by
  simp only [getItem, bind_apply, getObj_apply h, rbind_ok, normIdx_nat k.2, orIndexError, py, at1, k.2, dite_true]

/-! ### Sums -/

theorem sum_nums (y : Fin q → ℝ) {s : ℝ} {v : Val} (hv : IsNum A s v) :
    ∃ v', sumFrom A v (List.ofFn fun k => Val.num (y k)) st = .ok v' st ∧ IsNum A (Fin.foldl q (fun s k => A.add s (y k)) s) v' := by
  induction q generalizing s v with
  | zero => simp only [List.ofFn_zero]; exact ⟨v, rfl, by simpa using hv⟩
  | succ q ih =>
    obtain ⟨v', h1, h2⟩ := ih (fun k => y k.succ) (IsNum.num A (A.add s (y 0)))
    refine ⟨v', ?_, by rw [Fin.foldl_succ]; exact h2⟩
    simp only [List.ofFn_succ, sumFrom, bind_apply, binOp_left hv.1, floatOp_add, rbind_ok, pure_apply, h1]

theorem isNum_zero (hA : Literals A) : IsNum A 0 (.int 0) := ⟨by simp [Val.toFloat, hA.zero], by simp [Val.toReal]⟩

/-! ### Arrays -/

theorem vec_cast {r : ℕ} (h : r = q) (y : Fin q → ℝ) : Obj.vec r (fun i => y (i.cast h)) = Obj.vec q y := by subst h; rfl

theorem builtin_array (y : Fin q → ℝ) : builtin A "np.array" [.list (List.ofFn fun k => Val.num (y k))] st = .ok (.ref st.next) (st.alloc (.vec q y)) := by
  have : builtin A "np.array" [.list (List.ofFn fun k => Val.num (y k))] st = .ok (.ref st.next) (st.alloc (.vec (List.ofFn y).length (List.ofFn y).get)) := by
    simp only [builtin, iterate, bind_apply, pure_apply, rbind_ok, floats_ofFn]; rfl
  rw [this, ← vec_cast (List.length_ofFn (f := y)) y]
  congr 3
  funext i
  simp
  rfl

/-! ### Lists of new arrays -/

/-- Every item of the list is a new object. -/
theorem mapList_alloc {f : α → M W Val} {a : Fin q → α} {O : Fin q → Obj} (P : St W → Prop) (h : ∀ k st, P st → f (a k) st = .ok (.ref st.next) (st.alloc (O k)) ∧ P (st.alloc (O k))) (hP : P st) :
    ∃ st', mapList f (List.ofFn a) st = .ok (List.ofFn fun k : Fin q => Val.ref (st.next + (k : ℕ))) st' ∧ (∀ k : Fin q, st'.heap (st.next + (k : ℕ)) = some (O k)) ∧ P st' ∧ Frame (fun _ => False) st st' ∧ st'.next = st.next + q := by
  induction q generalizing st with
  | zero => simp only [List.ofFn_zero]; exact ⟨st, rfl, nofun, hP, .refl _ _, rfl⟩
  | succ q ih =>
    obtain ⟨h1, hP1⟩ := h 0 st hP
    obtain ⟨st', h2, h3, hP2, hf, hn⟩ := ih (a := fun k => a k.succ) (O := fun k => O k.succ) (fun k st h' => h k.succ st h') hP1
    rw [next_alloc] at h2 h3 hn
    refine ⟨st', ?_, fun k => ?_, hP2, ((Frame.refl (fun _ => False) st).alloc _).trans hf, by omega⟩
    · simp only [List.ofFn_succ, mapList, bind_apply, h1, rbind_ok, h2, pure_apply]
      simp only [Fin.val_zero, Nat.add_zero, Fin.val_succ, Nat.add_assoc, Nat.add_comm 1]
    · refine Fin.cases ?_ (fun k => ?_) k
      · rw [Fin.val_zero, Nat.add_zero, hf.same _ (by rw [next_alloc]; omega) not_false, heap_alloc_self]
      · rw [← h3 k, Fin.val_succ]; congr 1; omega

/-- The sum so far, in a sum of matrices: 0 at first, then a matrix. -/
def SumAcc (m : ℕ) (st : St W) (v : Val) (S : Fin m → Fin m → ℝ) : Prop := (v = .int 0 ∧ S = fun _ _ => 0) ∨ ∃ l, v = .ref l ∧ st.heap l = some (.mat m m S) ∧ l < st.next

theorem binOp_int_ref (hA : Literals A) (op : BinOp) (k : ℕ) : binOp A op (.int 0) (.ref k) st = arrL A op 0 (st.heap k) st := by
  rw [binOp_arr op rfl]
  simp only [operand, bind_apply, pure_apply, rbind_ok, getObj_eq, Int.cast_zero, hA.zero]
  cases st.heap k <;> rfl

/-- `sum` of matrices. -/
theorem sum_mats (hA : Literals A) {m : ℕ} (O : Fin q → Fin m → Fin m → ℝ) (b : ℕ) {v : Val} {S : Fin m → Fin m → ℝ} (hv : SumAcc m st v S)
    (hO : ∀ k : Fin q, st.heap (b + (k : ℕ)) = some (.mat m m (O k))) (hb : b + q ≤ st.next) :
    ∃ v' st', sumFrom A v (List.ofFn fun k : Fin q => Val.ref (b + (k : ℕ))) st = .ok v' st' ∧ SumAcc m st' v' (fun i j => Fin.foldl q (fun s k => A.add s (O k i j)) (S i j)) ∧ Frame (fun _ => False) st st' := by
  induction q generalizing st v S b with
  | zero => simp only [List.ofFn_zero]; exact ⟨v, st, rfl, by simpa using hv, .refl _ _⟩
  | succ q ih =>
    have h0 := hO 0
    rw [Fin.val_zero, Nat.add_zero] at h0
    have h1 : binOp A .add v (.ref b) st = .ok (.ref st.next) (st.alloc (.mat m m fun i j => A.add (S i j) (O 0 i j))) := by
      rcases hv with ⟨rfl, rfl⟩ | ⟨l, rfl, hl, -⟩
      · rw [binOp_int_ref hA, h0]
        simp [arrL, arrVal, arrOp, matOp, BinOp.entrywise, py, rawOp]
      · rw [binOp_rr, h0, hl]
        simp [arr2, arrVal, arrOp, matOp, BinOp.entrywise, py, rawOp]
    have hf : Frame (fun _ => False) st (st.alloc (.mat m m fun i j => A.add (S i j) (O 0 i j))) := (Frame.refl (fun _ => False) st).alloc _
    obtain ⟨v', st', h2, h3, h4⟩ := ih (st := st.alloc (.mat m m fun i j => A.add (S i j) (O 0 i j))) (v := .ref st.next) (S := fun i j => A.add (S i j) (O 0 i j)) (fun k => O k.succ) (b + 1)
      (.inr ⟨_, rfl, heap_alloc_self _, by rw [next_alloc]; omega⟩)
      (fun k => by rw [hf.same _ (by have := k.2; omega) not_false, ← hO k.succ, Fin.val_succ]; congr 1; omega) (by rw [next_alloc]; omega)
    refine ⟨v', st', ?_, ?_, hf.trans h4⟩
    · simp only [List.ofFn_succ, sumFrom, bind_apply, Fin.val_zero, Nat.add_zero, h1, rbind_ok, Fin.val_succ]
      rw [← h2]
      simp only [Nat.add_assoc, Nat.add_comm 1]
    · simpa only [Fin.foldl_succ] using h3

/-- `A -= sum(..)`. -/
theorem aug_sub_acc (hA : Literals A) {m l : ℕ} {M S : Fin m → Fin m → ℝ} {v : Val} (hv : SumAcc m st v S) (hl : st.heap l = some (.mat m m M)) :
    augOp A .sub (.ref l) v st = .ok (.ref l) (st.put l (.mat m m fun i j => A.sub (M i j) (S i j))) := by
  rcases hv with ⟨rfl, rfl⟩ | ⟨k, rfl, hk, -⟩
  · simp only [augOp, operand, bind_apply, pure_apply, rbind_ok, getObj_apply hl, Int.cast_zero, hA.zero]
    simp [arrOp, matOp, BinOp.entrywise, py, rawOp]
  · rw [augOp_rr, hk, hl]
    simp [aug2, arrOp, matOp, BinOp.entrywise, py, rawOp]

end Ellalgo.Py
