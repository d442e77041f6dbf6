import Verif.Py.Arrays

/-! # Rules for entries and parts of arrays -/

set_option linter.unusedSimpArgs false

namespace Ellalgo.Py

variable {W : Type} {st : St W} {A : Arith} {n l : ℕ}

/-- An array whose entries are those of a function. -/
def Obj.line (n : ℕ) (f : ℕ → ℝ) : Obj := .vec n fun i => f i
/-- A square array whose entries are those of a function. -/
def Obj.square (n : ℕ) (f : ℕ → ℕ → ℝ) : Obj := .mat n n fun i j => f i j

theorem normIdx_nat {k : ℕ} (h : k < n) : normIdx n (k : ℤ) = some k := by simp [normIdx, h]

theorem sliceRange_nat {lo hi : ℕ} (h : lo ≤ hi) (h' : hi ≤ n) : sliceRange n (some (lo : ℤ)) (some (hi : ℤ)) st = .ok (lo, hi) st := by
  simp [sliceRange, h, h', py]

theorem at1_line {f : ℕ → ℝ} {k : ℕ} (h : k < n) : at1 (fun i : Fin n => f i) k = f k := by simp [at1, h]
theorem at2_square {f : ℕ → ℕ → ℝ} {i j : ℕ} (hi : i < n) (hj : j < n) : at2 (fun i j : Fin n => f i j) i j = f i j := by simp [at2, at1, hi, hj]

theorem slice_congr {f g : ℕ → ℝ} {lo hi : ℕ} (h : ∀ k, lo ≤ k → k < hi → f k = g k) : Arith.slice f lo hi = Arith.slice g lo hi := by
  funext k
  have := k.2
  exact h _ (by omega) (by omega)


theorem item_line {f : ℕ → ℝ} (h : st.heap l = some (.line n f)) {k : ℕ} (hk : k < n) : getItem (.ref l) [.pos k] st = .ok (.num (f k)) st := by
  simp only [getItem, bind_apply, getObj_apply h, rbind_ok, Obj.line, normIdx_nat hk, orIndexError, py, at1_line hk]

theorem item_line_slice {f : ℕ → ℝ} (h : st.heap l = some (.line n f)) {lo hi : ℕ} (h1 : lo ≤ hi) (h2 : hi ≤ n) :
    getItem (.ref l) [.slice (some (lo : ℤ)) (some (hi : ℤ))] st = .ok (.ref st.next) (st.alloc (.vec (hi - lo) (Arith.slice f lo hi))) := by
  simp only [getItem, bind_apply, getObj_apply h, rbind_ok, Obj.line, sliceRange_nat h1 h2, py]
  rw [slice_congr (g := f) fun k _ hk => at1_line (hk.trans_le h2)]

theorem item_square {f : ℕ → ℕ → ℝ} (h : st.heap l = some (.square n f)) {i j : ℕ} (hi : i < n) (hj : j < n) :
    getItem (.ref l) [.pos i, .pos j] st = .ok (.num (f i j)) st := by
  simp only [getItem, bind_apply, getObj_apply h, rbind_ok, Obj.square, normIdx_nat hi, normIdx_nat hj, orIndexError, py, at2_square hi hj]

theorem item_square_row {f : ℕ → ℕ → ℝ} (h : st.heap l = some (.square n f)) {i lo hi : ℕ} (hi' : i < n) (h1 : lo ≤ hi) (h2 : hi ≤ n) :
    getItem (.ref l) [.pos i, .slice (some (lo : ℤ)) (some (hi : ℤ))] st = .ok (.ref st.next) (st.alloc (.vec (hi - lo) (Arith.slice (fun k => f i k) lo hi))) := by
  simp only [getItem, bind_apply, getObj_apply h, rbind_ok, Obj.square, normIdx_nat hi', orIndexError, sliceRange_nat h1 h2, py]
  rw [slice_congr (g := fun k => f i k) fun k _ hk => at2_square hi' (hk.trans_le h2)]

theorem item_square_col {f : ℕ → ℕ → ℝ} (h : st.heap l = some (.square n f)) {j lo hi : ℕ} (hj : j < n) (h1 : lo ≤ hi) (h2 : hi ≤ n) :
    getItem (.ref l) [.slice (some (lo : ℤ)) (some (hi : ℤ)), .pos j] st = .ok (.ref st.next) (st.alloc (.vec (hi - lo) (Arith.slice (fun k => f k j) lo hi))) := by
  simp only [getItem, bind_apply, getObj_apply h, rbind_ok, Obj.square, normIdx_nat hj, orIndexError, sliceRange_nat h1 h2, py]
  rw [slice_congr (g := fun k => f k j) fun k _ hk => at2_square (hk.trans_le h2) hj]

theorem item_mat {r c : ℕ} {x : Fin r → Fin c → ℝ} (h : st.heap l = some (.mat r c x)) {i j : ℕ} (hi : i < r) (hj : j < c) :
    getItem (.ref l) [.pos i, .pos j] st = .ok (.num (x ⟨i, hi⟩ ⟨j, hj⟩)) st := by
  simp only [getItem, bind_apply, getObj_apply h, rbind_ok, normIdx_nat hi, normIdx_nat hj, orIndexError, py, at2, at1, hi, hj, dite_true]

theorem item_square_square {f : ℕ → ℕ → ℝ} (h : st.heap l = some (.square n f)) {lo hi : ℕ} (h1 : lo ≤ hi) (h2 : hi ≤ n) :
    getItem (.ref l) [.slice (some (lo : ℤ)) (some (hi : ℤ)), .slice (some (lo : ℤ)) (some (hi : ℤ))] st
      = .ok (.ref st.next) (st.alloc (.mat (hi - lo) (hi - lo) fun i j => f (lo + i) (lo + j))) := by
  simp only [getItem, bind_apply, getObj_apply h, rbind_ok, Obj.square, sliceRange_nat h1 h2, py]
  congr 4
  funext i j
  exact at2_square (by omega) (by omega)

theorem set_line {f : ℕ → ℝ} (h : st.heap l = some (.line n f)) {k : ℕ} (hk : k < n) {v : Val} {y : ℝ} (hv : v.toFloat A = some y) :
    setItem A (.ref l) [.pos k] v st = .ok () (st.put l (.line n (set1 f k y))) := by
  simp only [setItem, setEntry, bind_apply, getObj_apply h, rbind_ok, Obj.line, entry, hv, normIdx_nat hk, orIndexError, py]
  congr

theorem set_square {f : ℕ → ℕ → ℝ} (h : st.heap l = some (.square n f)) {i j : ℕ} (hi : i < n) (hj : j < n) {v : Val} {y : ℝ} (hv : v.toFloat A = some y) :
    setItem A (.ref l) [.pos i, .pos j] v st = .ok () (st.put l (.square n (set2 f i j y))) := by
  simp only [setItem, setEntry, bind_apply, getObj_apply h, rbind_ok, Obj.square, entry, hv, normIdx_nat hi, normIdx_nat hj, orIndexError, py]
  congr

@[py] theorem toIdx_slice (a b : ℤ) : toIdx (.tuple [.str "slice", .int a, .int b]) st = .ok (.slice (some a) (some b)) st := rfl

end Ellalgo.Py
