import Verif.Py.Refine.LdltMgr

/-!
# The text of `witness`, `sym_quad`, `factorize`, `sqrt` and `__init__` of `ldlt_mgr.py`
-/

set_option linter.unusedSimpArgs false

namespace Ellalgo.Py

variable {W : Type} {n : ℕ} {A : Arith} {ext : ℕ → String → List Val → M W Val} {fuel : ℕ} {l lw ls : ℕ}

/-! ### `witness` -/

/-- The elements of `range(hi, lo, -1)`. -/
def intsDown (hi : ℤ) (len : ℕ) : List Val := (List.range len).map fun k : ℕ => .int (hi - k)

@[py] theorem builtin_range_down (hi lo : ℤ) {st : St W} : builtin A "range" [.int hi, .int lo, .int (-1)] st = .ok (.list (intsDown hi (hi - lo).toNat)) st := rfl

theorem ints_down_zero (hi : ℤ) : intsDown hi 0 = [] := rfl
theorem ints_down_cons (hi len : ℕ) : intsDown ((hi + 1 : ℕ) : ℤ) (len + 1) = .int ((hi + 1 : ℕ) : ℤ) :: intsDown hi len := by
  simp only [intsDown, List.range_succ_eq_map, List.map_cons, List.map_map]
  refine congrArg₂ _ (by simp) ?_
  · refine List.map_congr_left fun k _ => ?_
    simp only [Function.comp]
    congr 1
    push_cast
    ring

/-- The local variables of `witness` that its loop does not change. -/
structure WitEnv (env : Env) (l pos : ℕ) : Prop where
  self : env "self" = some (.ref l)
  pos : env "pos" = some (.int pos)

/-- The loop of `witness`. -/
theorem wit_loop {m : LDLTMgr ℝ} (start pos : ℕ) (hpos : pos ≤ m.ndim) (hi : ℕ) (hhi : hi < pos) (w : ℕ → ℝ) (env : Env) (st : St W) (he : WitEnv env l pos) (hei : env "m" = some (.int ((pos - 1 : ℕ) : ℤ)))
    (hm : MgrAt st l lw ls { m with wit := w }) :
    ∃ env' st', loop (turn (mach A ext) (call (mach A ext) (fuel + 1)) (.name "i") (loopBody Source.LdltMgr.LDLTMgr.witness.body)) (intsDown hi (hi - start)) env st = .ok (.next env') st'
      ∧ WitEnv env' l pos ∧ env' "m" = some (.int ((pos - 1 : ℕ) : ℤ))
      ∧ MgrAt st' l lw ls { m with wit := forDown start (fun i w => set1 w (i - 1) (-A.dot (Arith.slice (fun k => m.storage k (i - 1)) i pos) (Arith.slice w i pos))) hi w }
      ∧ Frame (· = lw) st st' := by
  induction hi generalizing w env st with
  | zero =>
    simp only [Nat.zero_sub, ints_down_zero, py]
    exact ⟨env, st, rfl, he, hei, hm, .refl _ _⟩
  | succ hi ih =>
    by_cases hs : start < hi + 1
    · obtain ⟨attrs, hl, ha⟩ := hm.obj
      obtain ⟨hlw, hls, hws⟩ := hm.ne
      have hlw' : (l = lw) = False := by simpa using hlw
      have hsw' : (ls = lw) = False := by simpa [eq_comm] using hws
      set y := -A.dot (Arith.slice (fun k => m.storage k hi) (hi + 1) pos) (Arith.slice w (hi + 1) pos) with hy
      set t1 := st.alloc (.vec (pos - (hi + 1)) (Arith.slice (fun k => m.storage k hi) (hi + 1) pos)) with ht1
      set t2 := t1.alloc (.vec (pos - (hi + 1)) (Arith.slice w (hi + 1) pos)) with ht2
      have hltl := hm.ltl
      have hltw := hm.ltw
      have hlts := hm.lts
      have n1 : t1.next = st.next + 1 := by rw [ht1, next_alloc]
      have n2 : t2.next = st.next + 1 + 1 := by rw [ht2, next_alloc, n1]
      have hl1 : t1.heap l = some (.inst "LDLTMgr" attrs) := by rw [ht1, heap_alloc_ne (by omega), hl]
      have hw1 : t1.heap lw = some (.line m.ndim w) := by rw [ht1, heap_alloc_ne (by omega), hm.wit]
      have hs1 : t1.heap ls = some (.square m.ndim m.storage) := by rw [ht1, heap_alloc_ne (by omega), hm.storage]
      have hl2 : t2.heap l = some (.inst "LDLTMgr" attrs) := by rw [ht2, heap_alloc_ne (by omega), hl1]
      have hw2 : t2.heap lw = some (.line m.ndim w) := by rw [ht2, heap_alloc_ne (by omega), hw1]
      have hs2 : t2.heap ls = some (.square m.ndim m.storage) := by rw [ht2, heap_alloc_ne (by omega), hs1]
      have step : turn (mach A ext) (call (mach A ext) (fuel + 1)) (.name "i") (loopBody Source.LdltMgr.LDLTMgr.witness.body) (.int ((hi + 1 : ℕ) : ℤ)) env st
          = .ok (.next (env.set "i" (.int ((hi + 1 : ℕ) : ℤ)))) (t2.put lw (.line m.ndim (set1 w hi y))) := by
        have e1 : (((hi + 1 : ℕ) : ℤ) - 1) = (hi : ℤ) := by push_cast; ring
        have i1 := item_square_col hm.storage (j := hi) (show hi < m.ndim by omega) (show hi + 1 ≤ pos by omega) hpos
        have i2 := item_line_slice hw1 (show hi + 1 ≤ pos by omega) hpos
        have i3 := set_line (A := A) hw2 (show hi < m.ndim by omega) (v := .num y) rfl
        have hr1 : t1.heap st.next = some (.vec (pos - (hi + 1)) (Arith.slice (fun k => m.storage k hi) (hi + 1) pos)) := heap_alloc_self _
        have hr2 : t2.heap st.next = some (.vec (pos - (hi + 1)) (Arith.slice (fun k => m.storage k hi) (hi + 1) pos)) := by rw [ht2, heap_alloc_ne (by omega), hr1]
        have hr2' : t2.heap t1.next = some (.vec (pos - (hi + 1)) (Arith.slice w (hi + 1) pos)) := heap_alloc_self _
        have h1 := ha.storage
        have h2 := ha.wit
        clear_value t1 t2
        simp only [loopBody, Source.LdltMgr.LDLTMgr.witness]
        simp only [py, he.self, he.pos, hl, h1, h2, e1, i1, ← ht1, hr1, hl1, i2, ← ht2, hr2, hr2', ← hy, hl2, i3]
      obtain ⟨env', st', h1, he', hm', hst', hfr⟩ := ih (by omega) (set1 w hi y) (env.set "i" (.int ((hi + 1 : ℕ) : ℤ))) (t2.put lw (.line m.ndim (set1 w hi y)))
        ⟨by simp only [py, he.self], by simp only [py, he.pos]⟩ (by simp only [py, hei])
        ⟨⟨attrs, by simp only [py, hlw', hl2], ha.pos, ha.wit, ha.ndim, ha.storage, ha.only⟩, by simp only [py], by simp only [py, hsw', hs2], by rw [next_put]; omega, by rw [next_put]; omega, by rw [next_put]; omega⟩
      refine ⟨env', st', ?_, he', hm', ?_, ?_⟩
      · rw [show hi + 1 - start = hi - start + 1 by omega, ints_down_cons, loop_cons, step]
        exact h1
      · rw [forDown, if_pos hs]
        exact hst'
      · exact ((((Frame.refl (· = lw) st).alloc _).alloc _).put _ (.inl rfl)).trans hfr
    · rw [show hi + 1 - start = 0 by omega, ints_down_zero, forDown, if_neg hs]
      simp only [py]
      exact ⟨env, st, rfl, he, hei, hm, .refl _ _⟩

/-- `witness()`, called without or after a failed factorisation. -/
theorem mgr_witness (hA : Literals A) {st : St W} {m : LDLTMgr ℝ} (hm : MgrAt st l lw ls m) (hp : m.pos.2 ≠ 0 → m.pos.1 < m.pos.2 ∧ m.pos.2 ≤ m.ndim) :
    ∃ st', call (mach A ext) (fuel + 2) (.meth (.ref l) "witness") [] st = outcome Val.num (A.witness m).2 st' ∧ MgrAt st' l lw ls (A.witness m).1 ∧ Frame (· = lw) st st' := by
  obtain ⟨attrs, hl, ha⟩ := hm.obj
  have hspd := mgr_is_spd (A := A) (ext := ext) (fuel := fuel) hl ha.pos
  have hno := ha.only "is_spd" (by decide)
  have hpos := ha.pos
  by_cases hs : m.pos.2 = 0
  · refine ⟨st, ?_, ?_, .refl _ _⟩
    · rw [call_meth hl method_LDLTMgr_witness rfl]
      simp only [Source.LdltMgr.LDLTMgr.witness]
      simp only [py, hl, hno, hspd, hs, beq_self_eq_true]
      simp [Arith.witness, LDLTMgr.isSpd, hs, outcome, excOf]
      rfl
    · simpa [Arith.witness, LDLTMgr.isSpd, hs] using hm
  · obtain ⟨hp1, hp2⟩ := hp hs
    obtain ⟨hlw, hls, hws⟩ := hm.ne
    have hlw' : (l = lw) = False := by simpa using hlw
    have hsw' : (ls = lw) = False := by simpa [eq_comm] using hws
    set t := st.put lw (.line m.ndim (set1 m.wit (m.pos.2 - 1) 1)) with ht
    have hmt : MgrAt t l lw ls { m with wit := set1 m.wit (m.pos.2 - 1) 1 } :=
      ⟨⟨attrs, by simp only [ht, py, hlw', hl], ha.pos, ha.wit, ha.ndim, ha.storage, ha.only⟩, by simp only [ht, py], by simp only [ht, py, hsw', hm.storage], hm.ltl, hm.ltw, hm.lts⟩
    set env : Env := (((Env.empty.set "self" (.ref l)).set "start" (.int m.pos.1)).set "pos" (.int m.pos.2)).set "m" (.int ((m.pos.2 - 1 : ℕ) : ℤ)) with henv
    obtain ⟨env', st', h1, he', hm', hst', hfr⟩ := wit_loop (A := A) (ext := ext) (fuel := fuel) m.pos.1 m.pos.2 hp2 (m.pos.2 - 1) (by omega) (set1 m.wit (m.pos.2 - 1) 1) env t
      ⟨by simp only [henv, py], by simp only [henv, py]⟩ (by simp only [henv, py]) hmt
    obtain ⟨attrs', hl', ha'⟩ := hst'.obj
    have hw : A.witness m = ({ m with wit := forDown m.pos.1 (fun i w => set1 w (i - 1) (-A.dot (Arith.slice (fun k => m.storage k (i - 1)) i m.pos.2) (Arith.slice w i m.pos.2))) (m.pos.2 - 1) (set1 m.wit (m.pos.2 - 1) 1) }, .ok (-m.storage (m.pos.2 - 1) (m.pos.2 - 1))) := by
      simp [Arith.witness, LDLTMgr.isSpd, hs]
    rw [hw]
    refine ⟨st', ?_, hst', ((Frame.refl (· = lw) st).put _ (.inl rfl)).trans hfr⟩
    have e1 : ((m.pos.2 : ℤ) - 1) = ((m.pos.2 - 1 : ℕ) : ℤ) := by omega
    have e2 : (((m.pos.2 - 1 : ℕ) : ℤ) - (m.pos.1 : ℤ)).toNat = m.pos.2 - 1 - m.pos.1 := by omega
    have hb : (m.pos.2 == 0) = false := by simpa using hs
    have i1 := set_line (A := A) hm.wit (show m.pos.2 - 1 < m.ndim by omega) (v := .num 1) rfl
    have i2 := item_square hst'.storage (show m.pos.2 - 1 < m.ndim by omega) (show m.pos.2 - 1 < m.ndim by omega)
    have a1 := ha.wit
    have a2 := ha'.storage
    clear_value t
    rw [henv] at h1
    clear_value env
    rw [call_meth hl method_LDLTMgr_witness rfl]
    simp only [loopBody, Source.LdltMgr.LDLTMgr.witness] at h1 ⊢
    simp only [py, hl, hno, hspd, hb, hpos, e1, a1, hA.lit1, i1, ← ht, e2, h1, he'.self, hm', hl', a2, i2, outcome]

/-! ### `sym_quad` -/

/-- `sym_quad(mat)` changes nothing. -/
theorem mgr_sym_quad {st : St W} {m : LDLTMgr ℝ} (hm : MgrAt st l lw ls m) (h1 : m.pos.1 ≤ m.pos.2) (h2 : m.pos.2 ≤ m.ndim) {k : ℕ} {f : ℕ → ℕ → ℝ} (hk : st.heap k = some (.square m.ndim f)) (hkn : k < st.next) :
    ∃ st', call (mach A ext) (fuel + 2) (.meth (.ref l) "sym_quad") [.ref k] st = .ok (.num (A.symQuad m f)) st' ∧ Frame (fun _ => False) st st' := by
  obtain ⟨attrs, hl, ha⟩ := hm.obj
  have hpos := ha.pos
  have hwit := ha.wit
  have i1 := item_line_slice hm.wit h1 h2
  set t1 := st.alloc (.vec (m.pos.2 - m.pos.1) (Arith.slice m.wit m.pos.1 m.pos.2)) with ht1
  have n1 : t1.next = st.next + 1 := by rw [ht1, next_alloc]
  have r1 : t1.heap st.next = some (.vec (m.pos.2 - m.pos.1) (Arith.slice m.wit m.pos.1 m.pos.2)) := heap_alloc_self _
  have k1 : t1.heap k = some (.square m.ndim f) := by rw [ht1, heap_alloc_ne (by omega), hk]
  have i2 := item_square_square k1 h1 h2
  set t2 := t1.alloc (.mat (m.pos.2 - m.pos.1) (m.pos.2 - m.pos.1) fun i j => f (m.pos.1 + i) (m.pos.1 + j)) with ht2
  have n2 : t2.next = st.next + 2 := by rw [ht2, next_alloc, n1]
  have r2 : t2.heap t1.next = some (.mat (m.pos.2 - m.pos.1) (m.pos.2 - m.pos.1) fun i j => f (m.pos.1 + i) (m.pos.1 + j)) := heap_alloc_self _
  have r2' : t2.heap st.next = some (.vec (m.pos.2 - m.pos.1) (Arith.slice m.wit m.pos.1 m.pos.2)) := by rw [ht2, heap_alloc_ne (by omega), r1]
  set t3 := t2.alloc (.vec (m.pos.2 - m.pos.1) (A.mv (Matrix.of fun i j => f (m.pos.1 + i) (m.pos.1 + j)) (Arith.slice m.wit m.pos.1 m.pos.2))) with ht3
  have r3 : t3.heap t2.next = some (.vec (m.pos.2 - m.pos.1) (A.mv (Matrix.of fun i j => f (m.pos.1 + i) (m.pos.1 + j)) (Arith.slice m.wit m.pos.1 m.pos.2))) := heap_alloc_self _
  have r3' : t3.heap st.next = some (.vec (m.pos.2 - m.pos.1) (Arith.slice m.wit m.pos.1 m.pos.2)) := by rw [ht3, heap_alloc_ne (by omega), r2']
  refine ⟨t3, ?_, (((Frame.refl _ st).alloc _).alloc _).alloc _⟩
  clear_value t1 t2 t3
  rw [call_meth hl method_LDLTMgr_sym_quad rfl]
  simp only [Source.LdltMgr.LDLTMgr.sym_quad]
  simp only [py, hl, hpos, hwit, i1, ← ht1, r1, i2, ← ht2, r2, r2', ← ht3, r3, r3']
  rfl

/-! ### `factorize` -/

/-- `lambda i, j: mat[i, j]` -/
theorem getter_mat {k : ℕ} (f : ℕ → ℕ → ℝ) {own : ℕ → Prop} (hk : ¬ own k) (env : Env) (he : env "mat" = some (.ref k)) :
    Getter A ext (fuel + 1) n (.clos ["i", "j"] [.ret (.index (.name "mat") [.name "i", .name "j"])] env) f own (fun _ st => st.heap k = some (.square n f) ∧ k < st.next) where
  get {r st i j} h hi hj := by
    refine ⟨.num (f i j), st, ?_, .num A _, h, .refl _ _⟩
    have i1 := item_square h.1 hi hj
    rw [call_clos]
    simp only [py, he, i1]
  keep h hf := ⟨(hf.same k h.2 hk).trans h.1, h.2.trans_le hf.next⟩

/-- `factorize(mat)`. -/
theorem mgr_factorize (hA : Literals A) {st : St W} {m : LDLTMgr ℝ} (hm : MgrAt st l lw ls m) {k : ℕ} {f : ℕ → ℕ → ℝ} (hk : st.heap k = some (.square m.ndim f)) (hkn : k < st.next) (hkm : ¬ mgrCells l lw ls k) :
    ∃ st', call (mach A ext) (fuel + 3) (.meth (.ref l) "factorize") [.ref k] st = .ok (.bool (A.factor m f).2.1) st'
      ∧ MgrAt st' l lw ls (A.factor m f).1 ∧ Step (fun k => k = l ∨ k = ls) st st' := by
  obtain ⟨attrs, hl, ha⟩ := hm.obj
  have hno := ha.only "factor" (by decide)
  obtain ⟨st', h1, h2, -, h3⟩ := mgr_factor (getter_mat (A := A) (ext := ext) (fuel := fuel) (n := m.ndim) f (own := fun k => k = l ∨ k = ls) (fun h => hkm (h.elim .inl fun h => .inr (.inr h))) ((Env.empty.set "self" (.ref l)).set "mat" (.ref k)) (by simp only [py])) hA hm rfl ⟨hk, hkn⟩
  refine ⟨st', ?_, h2, h3⟩
  rw [call_meth hl method_LDLTMgr_factorize rfl]
  simp only [Source.LdltMgr.LDLTMgr.factorize]
  simp only [py, hl, hno, h1]

/-! ### `__init__` -/

@[py] theorem builtin_zeros (k : ℕ) {st : St W} : builtin A "np.zeros" [.int k] st = .ok (.ref st.next) (st.alloc (.line k fun _ => 0)) := rfl
@[py] theorem builtin_zeros2 (k : ℕ) {st : St W} : builtin A "np.zeros" [.tuple [.int k, .int k]] st = .ok (.ref st.next) (st.alloc (.square k fun _ _ => 0)) := rfl

/-- `LDLTMgr(ndim)`. -/
theorem new_mgr (k : ℕ) {st : St W} :
    ∃ st' lw ls, call (mach A ext) (fuel + 2) (.glob "LDLTMgr") [.int k] st = .ok (.ref st.next) st' ∧ MgrAt st' st.next lw ls (LDLTMgr.init k) ∧ st.next ≤ lw ∧ st.next ≤ ls
      ∧ Frame (fun _ => False) st st' := by
  have h01 : (st.next = st.next + 1) = False := by simp
  have h02 : (st.next = st.next + 2) = False := by simp
  have h21 : (st.next + 2 = st.next) = False := by simp
  have h10 : (st.next + 1 = st.next) = False := by simp
  have h12 : (st.next + 1 = st.next + 2) = False := by simp
  rw [call_class fun_LDLTMgr class_LDLTMgr rfl rfl]
  simp only [Source.LdltMgr.LDLTMgr.__init__]
  simp only [py, h01, h02, h21, h10, h12]
  refine ⟨_, st.next + 1, st.next + 2, rfl, ⟨⟨_, by simp only [py]; rfl, ?_⟩, ?_, ?_, ?_, ?_, ?_⟩, by omega, by omega, ?_⟩
  · refine ⟨by simp only [py]; rfl, by simp only [py], by simp only [py]; rfl, by simp only [py], fun a ha => ?_⟩
    simp only [List.mem_cons, List.not_mem_nil, or_false, not_or] at ha
    simp only [py, ha]
  · simp only [py, h01, h02, h21, h10, h12]
    rfl
  · simp only [py, h01, h02, h21, h10, h12]
    rfl
  · simp only [py]; omega
  · simp only [py]; omega
  · simp only [py]; omega
  · exact ((((((Frame.refl _ st).alloc _).alloc _).put _ (.inr le_rfl)).alloc _).put _ (.inr le_rfl))

/-! ### `sqrt` -/

/-- The local variables of `sqrt`. -/
structure SqrtEnv (env : Env) (l lr : ℕ) : Prop where
  self : env "self" = some (.ref l)
  R : env "R" = some (.ref lr)
  range : env "range" = none
  math : env "math" = none

theorem SqrtEnv.set {env : Env} {lr : ℕ} (h : SqrtEnv env l lr) {x : String} (hx : x ∉ ["self", "R", "range", "math"]) (v : Val) : SqrtEnv (env.set x v) l lr := by
  simp only [List.mem_cons, List.not_mem_nil, or_false, not_or] at hx
  obtain ⟨h1, h2, h3, h4⟩ := hx
  exact ⟨(set_ne _ (Ne.symm h1) _).trans h.self, (set_ne _ (Ne.symm h2) _).trans h.R, (set_ne _ (Ne.symm h3) _).trans h.range, (set_ne _ (Ne.symm h4) _).trans h.math⟩

theorem MgrAt.frame {st st' : St W} {m : LDLTMgr ℝ} {own : ℕ → Prop} (hm : MgrAt st l lw ls m) (hf : Frame own st st') (ho : ∀ k, own k → ¬ mgrCells l lw ls k) : MgrAt st' l lw ls m :=
  hm.mono hf.next fun k hk => hf.same k (by rcases hk with rfl | rfl | rfl; exacts [hm.ltl, hm.ltw, hm.lts]) fun h => ho k h hk

/-- The loop over `j` in `sqrt`. -/
theorem sqrt_inner {m : LDLTMgr ℝ} (i len j lr : ℕ) (hlen : j + len = m.ndim) (hi : i < m.ndim) (R : ℕ → ℕ → ℝ) (env : Env) (st : St W) (he : SqrtEnv env l lr) (hei : env "i" = some (.int i))
    (hm : MgrAt st l lw ls m) (hr : st.heap lr = some (.square m.ndim R)) (hrm : ¬ mgrCells l lw ls lr) :
    ∃ env' st', loop (turn (mach A ext) (call (mach A ext) (fuel + 1)) (.name "j") (loopBody (loopBody Source.LdltMgr.LDLTMgr.sqrt.body))) (intsFrom j len) env st = .ok (.next env') st'
      ∧ SqrtEnv env' l lr ∧ st'.heap lr = some (.square m.ndim (forUp (fun j R => set2 R i j (A.mul (m.storage j i) (R i i))) len j R)) ∧ Frame (· = lr) st st' := by
  induction len generalizing j R env st with
  | zero =>
    simp only [ints_zero, py]
    exact ⟨env, st, rfl, he, hr, .refl _ _⟩
  | succ len ih =>
    obtain ⟨attrs, hl, ha⟩ := hm.obj
    have i1 := item_square hm.storage (i := j) (show j < m.ndim by omega) hi
    have i2 := item_square hr hi hi
    have i3 := fun y => set_square (A := A) hr hi (show j < m.ndim by omega) (v := .num y) rfl
    have h1 := ha.storage
    have step : turn (mach A ext) (call (mach A ext) (fuel + 1)) (.name "j") (loopBody (loopBody Source.LdltMgr.LDLTMgr.sqrt.body)) (.int j) env st
        = .ok (.next (env.set "j" (.int j))) (st.put lr (.square m.ndim (set2 R i j (A.mul (m.storage j i) (R i i))))) := by
      simp only [loopBody, Source.LdltMgr.LDLTMgr.sqrt]
      simp only [py, he.self, he.R, hei, hl, h1, i1, i2, i3]
    have hf : Frame (· = lr) st (st.put lr (.square m.ndim (set2 R i j (A.mul (m.storage j i) (R i i))))) := (Frame.refl (· = lr) st).put _ (.inl rfl)
    obtain ⟨env', st', h2, he', hr', hfr⟩ := ih (j + 1) (by omega) _ (env.set "j" (.int j)) _ (he.set (by decide) _) (by simp only [py, hei]) (hm.frame hf fun k hk => hk ▸ hrm) (heap_put_self _ _)
    refine ⟨env', st', ?_, he', hr', hf.trans hfr⟩
    rw [ints_cons, loop_cons, step]
    exact h2

/-- The loop over `i` in `sqrt`. -/
theorem sqrt_outer {m : LDLTMgr ℝ} (len i lr : ℕ) (hlen : i + len = m.ndim) (R : ℕ → ℕ → ℝ) (env : Env) (st : St W) (he : SqrtEnv env l lr)
    (hm : MgrAt st l lw ls m) (hr : st.heap lr = some (.square m.ndim R)) (hrm : ¬ mgrCells l lw ls lr) :
    match A.sqrtLoop m.storage m.ndim len i R with
    | .error f => ∃ st', loop (turn (mach A ext) (call (mach A ext) (fuel + 1)) (.name "i") (loopBody Source.LdltMgr.LDLTMgr.sqrt.body)) (intsFrom i len) env st = .exc (excOf f) st' ∧ Frame (· = lr) st st'
    | .ok R' => ∃ env' st', loop (turn (mach A ext) (call (mach A ext) (fuel + 1)) (.name "i") (loopBody Source.LdltMgr.LDLTMgr.sqrt.body)) (intsFrom i len) env st = .ok (.next env') st'
        ∧ SqrtEnv env' l lr ∧ st'.heap lr = some (.square m.ndim R') ∧ Frame (· = lr) st st' := by
  induction len generalizing i R env st with
  | zero =>
    simp only [ints_zero, py, Arith.sqrtLoop]
    exact ⟨env, st, rfl, he, hr, .refl _ _⟩
  | succ len ih =>
    obtain ⟨attrs, hl, ha⟩ := hm.obj
    have hi : i < m.ndim := by omega
    have i1 := item_square hm.storage hi hi
    have i3 := fun y => set_square (A := A) hr hi hi (v := .num y) rfl
    have h1 := ha.storage
    by_cases hneg : m.storage i i < 0
    · simp only [Arith.sqrtLoop, Arith.sqrtRow, hneg, if_true]
      refine ⟨st, ?_, .refl _ _⟩
      rw [ints_cons, loop_cons]
      simp only [loopBody, Source.LdltMgr.LDLTMgr.sqrt]
      simp only [py, he.self, he.math, hl, h1, i1, hneg, excOf]
    · set R1 := set2 R i i (A.rnd (Real.sqrt (m.storage i i))) with hR1
      have hf1 : Frame (· = lr) st (st.put lr (.square m.ndim R1)) := (Frame.refl (· = lr) st).put _ (.inl rfl)
      have hm1 := hm.frame hf1 fun k hk => hk ▸ hrm
      obtain ⟨env2, st2, h2, he2, hr2, hfr2⟩ := sqrt_inner (A := A) (ext := ext) (fuel := fuel) i (m.ndim - (i + 1)) (i + 1) lr (by omega) hi R1 (env.set "i" (.int i)) (st.put lr (.square m.ndim R1))
        (he.set (by decide) _) (by simp only [py]) hm1 (heap_put_self _ _) hrm
      have hf2 := hf1.trans hfr2
      have ih' := ih (i + 1) (by omega) _ env2 st2 he2 (hm.frame hf2 fun k hk => hk ▸ hrm) hr2
      have e1 : ((i : ℤ) + 1) = ((i + 1 : ℕ) : ℤ) := by push_cast; rfl
      have e2 : ((m.ndim : ℤ) - ((i + 1 : ℕ) : ℤ)).toNat = m.ndim - (i + 1) := by omega
      have hlr : (l = lr) = False := by simp; rintro rfl; exact hrm (.inl rfl)
      have h3 := ha.ndim
      have step : turn (mach A ext) (call (mach A ext) (fuel + 1)) (.name "i") (loopBody Source.LdltMgr.LDLTMgr.sqrt.body) (.int i) env st = .ok (.next env2) st2 := by
        simp only [loopBody, Source.LdltMgr.LDLTMgr.sqrt] at h2 ⊢
        simp only [py, he.self, he.R, he.math, he.range, hl, h1, i1, hneg, i3, ← hR1, hlr, h3, e1, e2, h2]
      rw [ints_cons, loop_cons, step, Arith.sqrtLoop, Arith.sqrtRow, if_neg hneg, ← hR1]
      dsimp only [forRange]
      rcases hs : A.sqrtLoop m.storage m.ndim len (i + 1) (forUp (fun j R => set2 R i j (A.mul (m.storage j i) (R i i))) (m.ndim - (i + 1)) (i + 1) R1) with f | R' <;> rw [hs] at ih' <;> dsimp only at ih' ⊢
      · obtain ⟨st', h4, h5⟩ := ih'
        exact ⟨st', h4, hf2.trans h5⟩
      · obtain ⟨env', st', h4, h5, h6, h7⟩ := ih'
        exact ⟨env', st', h4, h5, h6, hf2.trans h7⟩

/-- `sqrt()`. -/
theorem mgr_sqrt {st : St W} {m : LDLTMgr ℝ} (hm : MgrAt st l lw ls m) :
    match A.ldltSqrt m with
    | .error f => ∃ st', call (mach A ext) (fuel + 2) (.meth (.ref l) "sqrt") [] st = .exc (excOf f) st' ∧ Frame (fun _ => False) st st'
    | .ok R => ∃ st', call (mach A ext) (fuel + 2) (.meth (.ref l) "sqrt") [] st = .ok (.ref st.next) st' ∧ st'.heap st.next = some (.square m.ndim R) ∧ st.next < st'.next ∧ Frame (fun _ => False) st st' := by
  obtain ⟨attrs, hl, ha⟩ := hm.obj
  have hspd := mgr_is_spd (A := A) (ext := ext) (fuel := fuel) hl ha.pos
  have hno := ha.only "is_spd" (by decide)
  have hnd := ha.ndim
  by_cases hs : m.pos.2 = 0
  · have hb : (m.pos.2 == 0) = true := by simpa using hs
    set t := st.alloc (.square m.ndim fun _ _ => 0) with ht
    have hft : Frame (fun _ => False) st t := (Frame.refl _ _).alloc _
    have hrm : ¬ mgrCells l lw ls st.next := by
      have h1 := hm.ltl
      have h2 := hm.ltw
      have h3 := hm.lts
      rintro (h | h | h) <;> omega
    have hl' : t.heap l = some (.inst "LDLTMgr" attrs) := by rw [ht, heap_alloc_ne (by have := hm.ltl; omega), hl]
    have hn : t.next = st.next + 1 := rfl
    have h0 : t.heap st.next = some (.square m.ndim fun _ _ => 0) := heap_alloc_self _
    have h1 := sqrt_outer (A := A) (ext := ext) (fuel := fuel) m.ndim 0 st.next (Nat.zero_add _) (fun _ _ => 0) ((Env.empty.set "self" (.ref l)).set "R" (.ref st.next)) t
      ⟨by simp only [py], by simp only [py], by simp only [py], by simp only [py]⟩ (hm.frame hft nofun) h0 hrm
    have hframe : ∀ {st'}, Frame (· = st.next) t st' → Frame (fun _ => False) st st' := fun hf =>
      ⟨hft.next.trans hf.next, hf.world.trans hft.world, fun k hk _ => (hf.same k (hk.trans_le hft.next) (by omega)).trans (hft.same k hk not_false)⟩
    have hsq : A.ldltSqrt m = A.sqrtLoop m.storage m.ndim m.ndim 0 fun _ _ => 0 := by simp [Arith.ldltSqrt, LDLTMgr.isSpd, hs]
    rw [hsq]
    rcases hR : A.sqrtLoop m.storage m.ndim m.ndim 0 (fun _ _ => 0) with f | R <;> rw [hR] at h1 <;> dsimp only at h1 ⊢
    · obtain ⟨st', h2, h3⟩ := h1
      refine ⟨st', ?_, hframe h3⟩
      clear_value t
      rw [call_meth hl method_LDLTMgr_sqrt rfl]
      simp only [loopBody, Source.LdltMgr.LDLTMgr.sqrt, Nat.cast_zero] at h2 ⊢
      simp only [py, hl, hno, hspd, hb, hnd, ← ht, hl', Int.toNat_natCast, h2]
    · obtain ⟨env', st', h2, h3, h4, h5⟩ := h1
      refine ⟨st', ?_, h4, by have := h5.next; omega, hframe h5⟩
      clear_value t
      have h6 := h3.R
      rw [call_meth hl method_LDLTMgr_sqrt rfl]
      simp only [loopBody, Source.LdltMgr.LDLTMgr.sqrt, Nat.cast_zero] at h2 ⊢
      simp only [py, hl, hno, hspd, hb, hnd, ← ht, hl', Int.toNat_natCast, h2, h6]
  · have hb : (m.pos.2 == 0) = false := by simpa using hs
    have hsq : A.ldltSqrt m = .error .assertion := by simp [Arith.ldltSqrt, LDLTMgr.isSpd, hs]
    rw [hsq]
    refine ⟨st, ?_, .refl _ _⟩
    rw [call_meth hl method_LDLTMgr_sqrt rfl]
    simp only [Source.LdltMgr.LDLTMgr.sqrt]
    simp only [py, hl, hno, hspd, hb, excOf]

end Ellalgo.Py
