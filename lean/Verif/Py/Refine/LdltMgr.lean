import Verif.Py.Index
import Verif.Py.Refine.Runs
import Verif.Model.RoundedLmi
import Verif.Model.RoundedLdlt

/-!
# The text of `ldlt_mgr.py` computes what `Model/Rounded` says

`get_elem` is whatever meets the contract `Getter`: it returns the entry and leaves what was there alone; it may keep a log of the calls.
-/

set_option linter.unusedSimpArgs false

namespace Ellalgo.Py

open LDLTMgr (RowState)

variable {W : Type} {n : ℕ}

/-- A float, or an integer that is one. -/
def IsNum (A : Arith) (x : ℝ) (v : Val) : Prop := v.toFloat A = some x ∧ v.toReal = some x

theorem IsNum.num (A : Arith) (x : ℝ) : IsNum A x (.num x) := ⟨rfl, rfl⟩

theorem cmp_le_real {v : Val} {x y : ℝ} (h : v.toReal = some x) {st : St W} : cmpOp .le v (.num y) st = .ok (.bool (decide (x ≤ y))) st := by
  cases v <;> simp [Val.toReal] at h <;> subst h <;> rfl
theorem cmp_eq_real {v : Val} {x : ℝ} (h : v.toReal = some x) (k : ℤ) {st : St W} : cmpOp .eq v (.int k) st = .ok (.bool (decide (x = k))) st := by
  cases v <;> simp [Val.toReal] at h <;> subst h <;> simp only [cmpOp, eqOp, Val.toReal, py]

/-- `get_elem`: `J r st` says that the calls with the indices in `r` have been made. -/
structure Getter (A : Arith) (ext : ℕ → String → List Val → M W Val) (fuel n : ℕ) (vg : Val) (elem : ℕ → ℕ → ℝ) (own : ℕ → Prop) (J : List (ℕ × ℕ) → St W → Prop) : Prop where
  get : ∀ {r st i j}, J r st → i < n → j < n → ∃ v st', call (mach A ext) fuel vg [.int i, .int j] st = .ok v st' ∧ IsNum A (elem i j) v ∧ J (r ++ [(i, j)]) st' ∧ Step (fun _ => False) st st'
  keep : ∀ {r st st'}, J r st → Frame own st st' → J r st'

theorem Step.refl (own : ℕ → Prop) (st : St W) : Step own st st := ⟨le_rfl, fun _ _ _ => rfl⟩
theorem Step.trans {own : ℕ → Prop} {st st' st'' : St W} (h : Step own st st') (h' : Step own st' st'') : Step own st st'' :=
  ⟨h.next.trans h'.next, fun k hk hS => (h'.same k (hk.trans_le h.next) hS).trans (h.same k hk hS)⟩
theorem Step.mono {own own' : ℕ → Prop} {st st' : St W} (h : Step own st st') (hs : ∀ k, own k → own' k) : Step own' st st' :=
  ⟨h.next, fun k hk hS => h.same k hk fun h' => hS (hs k h')⟩
theorem Frame.step {own : ℕ → Prop} {st st' : St W} (h : Frame own st st') : Step own st st' := ⟨h.next, h.same⟩
theorem Frame.mono {own own' : ℕ → Prop} {st st' : St W} (h : Frame own st st') (hs : ∀ k, own k → own' k) : Frame own' st st' :=
  ⟨h.next, h.world, fun k hk hS => h.same k hk fun h' => hS (hs k h')⟩

/-- The attributes of an `LDLTMgr`. -/
structure IsMgr (attrs : Env) (m : LDLTMgr ℝ) (lw ls : ℕ) : Prop where
  pos : attrs "pos" = some (.tuple [.int m.pos.1, .int m.pos.2])
  wit : attrs "wit" = some (.ref lw)
  ndim : attrs "_ndim" = some (.int m.ndim)
  storage : attrs "_storage" = some (.ref ls)
  only : ∀ a ∉ ["pos", "wit", "_ndim", "_storage"], attrs a = none

/-- A location with an `LDLTMgr`, whose arrays are at `lw` and `ls`. -/
structure MgrAt (st : St W) (l lw ls : ℕ) (m : LDLTMgr ℝ) : Prop where
  obj : ∃ attrs, st.heap l = some (.inst "LDLTMgr" attrs) ∧ IsMgr attrs m lw ls
  wit : st.heap lw = some (.line m.ndim m.wit)
  storage : st.heap ls = some (.square m.ndim m.storage)
  ltl : l < st.next
  ltw : lw < st.next
  lts : ls < st.next

/-- The locations of an `LDLTMgr`. -/
def mgrCells (l lw ls k : ℕ) : Prop := k = l ∨ k = lw ∨ k = ls

theorem MgrAt.mono {st st' : St W} {l lw ls : ℕ} {m : LDLTMgr ℝ} (h : MgrAt st l lw ls m) (hn : st.next ≤ st'.next) (hs : ∀ k, mgrCells l lw ls k → st'.heap k = st.heap k) : MgrAt st' l lw ls m := by
  obtain ⟨⟨attrs, hl, ha⟩, hw, hs', h1, h2, h3⟩ := h
  exact ⟨⟨attrs, (hs l (.inl rfl)).trans hl, ha⟩, (hs lw (.inr (.inl rfl))).trans hw, (hs ls (.inr (.inr rfl))).trans hs', h1.trans_le hn, h2.trans_le hn, h3.trans_le hn⟩

theorem MgrAt.ne {st : St W} {l lw ls : ℕ} {m : LDLTMgr ℝ} (h : MgrAt st l lw ls m) : l ≠ lw ∧ l ≠ ls ∧ lw ≠ ls := by
  obtain ⟨⟨attrs, hl, -⟩, hw, hs, -⟩ := h
  refine ⟨?_, ?_, ?_⟩ <;> rintro rfl
  · rw [hl] at hw; simp [Obj.line] at hw
  · rw [hl] at hs; simp [Obj.square] at hs
  · rw [hw] at hs; simp [Obj.square, Obj.line] at hs

/-! ### `factor` -/

/-- The local variables of `factor` that a row does not change. -/
structure FactorEnv (env : Env) (l : ℕ) (vg : Val) (start : ℕ) : Prop where
  self : env "self" = some (.ref l)
  get : env "get_elem" = some vg
  start : env "start" = some (.int start)
  range : env "range" = none

/-- The statements of the loop over `j`. -/
def rowBody : List PStmt := loopBody (loopBody Source.LdltMgr.LDLTMgr.factor.body)

theorem ints_cons (lo : ℕ) (len : ℕ) : intsFrom lo (len + 1) = .int lo :: intsFrom ((lo + 1 : ℕ) : ℤ) len := by
  have := ints_succ lo len
  simpa using this

section

variable {A : Arith} {ext : ℕ → String → List Val → M W Val} {fuel : ℕ} {vg : Val} {elem : ℕ → ℕ → ℝ} {l lw ls : ℕ} {J : List (ℕ × ℕ) → St W → Prop}
  (hg : Getter A ext (fuel + 1) n vg elem (fun k => k = l ∨ k = ls) J)
include hg

/-- The loop over `j`. -/
theorem row_loop (start i len j : ℕ) (rs : RowState ℝ) (hj : start ≤ j) (hlen : j + len = i) (hi : i < n) (env : Env) (st : St W) (vd : Val) {attrs : Env}
    (he : FactorEnv env l vg start) (hei : env "i" = some (.int i)) (hd : env "diag" = some vd) (hvd : IsNum A rs.diag vd)
    (hl : st.heap l = some (.inst "LDLTMgr" attrs)) (hat : attrs "_storage" = some (.ref ls)) (hs : st.heap ls = some (.square n rs.storage)) (hltl : l < st.next) (hlts : ls < st.next)
    (hJ : J rs.reads st) (hp : ∀ k, start ≤ k → k < i → rs.storage k k ≠ 0) :
    ∃ env' st' vd', loop (turn (mach A ext) (call (mach A ext) (fuel + 1)) (.name "j") rowBody) (intsFrom j len) env st = .ok (.next env') st'
      ∧ FactorEnv env' l vg start ∧ env' "i" = some (.int i) ∧ env' "diag" = some vd' ∧ IsNum A (forUp (A.rowStep elem start i) len j rs).diag vd'
      ∧ st'.heap ls = some (.square n (forUp (A.rowStep elem start i) len j rs).storage) ∧ J (forUp (A.rowStep elem start i) len j rs).reads st' ∧ Step (· = ls) st st'
      ∧ ∀ k, start ≤ k → k < i → (forUp (A.rowStep elem start i) len j rs).storage k k ≠ 0 := by
  induction len generalizing j rs env st vd with
  | zero =>
    simp only [Nat.cast_zero, ints_zero, py]
    exact ⟨env, st, vd, rfl, he, hei, hd, hvd, hs, hJ, .refl _ _, hp⟩
  | succ len ih =>
    have hjn : j < n := by omega
    have hji : j < i := by omega
    have hll : (l = ls) = False := by simp; rintro rfl; rw [hl] at hs; simp [Obj.square] at hs
    set s1 := set2 rs.storage j i rs.diag with hs1
    have h1jj : s1 j j = rs.storage j j := by simp [hs1, set2]; omega
    have hjj : s1 j j ≠ 0 := h1jj ▸ hp j hj hji
    set s2 := set2 s1 i j (A.div rs.diag (s1 j j)) with hs2
    set t2 := st.put ls (.square n s2) with ht2
    have hJ2 : J rs.reads t2 := hg.keep hJ ((Frame.refl _ _).put _ (.inl (.inr rfl)))
    obtain ⟨v, t3, h3, hv, hJ3, hst3⟩ := hg.get hJ2 hi (show j + 1 < n by omega)
    have hl3 : t3.heap l = some (.inst "LDLTMgr" attrs) := by
      rw [hst3.same l hltl not_false]; simp only [ht2, py, hll, hl]
    have hs3 : t3.heap ls = some (.square n s2) := by
      rw [hst3.same ls hlts not_false]; simp only [ht2, py]
    have hn3 : st.next ≤ t3.next := hst3.next
    set t4 := t3.alloc (.vec (j + 1 - start) (Arith.slice (fun k => s2 i k) start (j + 1))) with ht4
    set t5 := t4.alloc (.vec (j + 1 - start) (Arith.slice (fun k => s2 k (j + 1)) start (j + 1))) with ht5
    have hl4 : t4.heap l = some (.inst "LDLTMgr" attrs) := by rw [ht4, heap_alloc_ne (by omega), hl3]
    have hs4 : t4.heap ls = some (.square n s2) := by rw [ht4, heap_alloc_ne (by omega), hs3]
    have hl5 : t5.heap l = some (.inst "LDLTMgr" attrs) := by rw [ht5, heap_alloc_ne (by rw [ht4, next_alloc]; omega), hl4]
    have hs5 : t5.heap ls = some (.square n s2) := by rw [ht5, heap_alloc_ne (by rw [ht4, next_alloc]; omega), hs4]
    have step : turn (mach A ext) (call (mach A ext) (fuel + 1)) (.name "j") rowBody (.int j) env st
        = .ok (.next (((env.set "j" (.int j)).set "stop" (.int ((j + 1 : ℕ) : ℤ))).set "diag" (.num (A.sub (elem i (j + 1)) (A.dot (Arith.slice (fun k => s2 i k) start (j + 1)) (Arith.slice (fun k => s2 k (j + 1)) start (j + 1))))))) t5 := by
      have e1 : ((j : ℤ) + 1) = ((j + 1 : ℕ) : ℤ) := by push_cast; rfl
      have i1 := set_square (A := A) hs hjn hi hvd.1
      have i2 := item_square (st := st.put ls (.square n s1)) (heap_put_self _ _) hjn hjn
      have i3 := fun y => set_square (A := A) (st := st.put ls (.square n s1)) (heap_put_self _ _) hi hjn (v := .num y) rfl
      have i4 := item_square_row hs3 hi (show start ≤ j + 1 by omega) (show j + 1 ≤ n by omega)
      have i5 := item_square_col hs4 (show j + 1 < n by omega) (show start ≤ j + 1 by omega) (show j + 1 ≤ n by omega)
      have hne : (t3.next = t4.next) = False := by simp [ht4, next_alloc]
      have hr4 : t4.heap t3.next = some (.vec (j + 1 - start) (Arith.slice (fun k => s2 i k) start (j + 1))) := heap_alloc_self _
      have hr5 : t5.heap t3.next = some (.vec (j + 1 - start) (Arith.slice (fun k => s2 i k) start (j + 1))) := by rw [ht5, heap_alloc_ne (by simp [ht4, next_alloc]), hr4]
      have hr5' : t5.heap t4.next = some (.vec (j + 1 - start) (Arith.slice (fun k => s2 k (j + 1)) start (j + 1))) := heap_alloc_self _
      clear_value t4 t5
      simp only [rowBody, loopBody, Source.LdltMgr.LDLTMgr.factor]
      simp only [py, he.self, he.get, he.start, hei, hd, hl, hll, hat, i1, ← hs1, i2, div_left hvd.1, hjj, i3, ← hs2, ← ht2, e1, h3, hl3, hl4, hl5, i4, ← ht4, i5, ← ht5, hr4, hr5, hr5', binOp_left hv.1]
    have hJ5 : J (rs.reads ++ [(i, j + 1)]) t5 := hg.keep hJ3 (((Frame.refl _ _).alloc _).alloc _)
    have hst : Step (· = ls) st t5 :=
      (((Frame.refl (· = ls) st).put _ (.inl rfl)).step.trans (hst3.mono nofun)).trans (((Frame.refl (· = ls) t3).alloc _).alloc _).step
    have hpp : ∀ k, start ≤ k → k < i → s2 k k ≠ 0 := fun k h1 h2 => by
      have : s2 k k = rs.storage k k := by simp only [hs2, hs1, set2]; rw [if_neg (by omega), if_neg (by omega)]
      rw [this]; exact hp k h1 h2
    obtain ⟨env', st', vd', h1, h2, h3, h4, h5, h6, h7, h8, h9⟩ := ih (j + 1) (A.rowStep elem start i j rs) (by omega) (by omega)
      (((env.set "j" (.int j)).set "stop" (.int ((j + 1 : ℕ) : ℤ))).set "diag" _) t5 _ ⟨by simp only [py, he.self], by simp only [py, he.get], by simp only [py, he.start], by simp only [py, he.range]⟩
      (by simp only [py, hei]) (by simp only [py]; rfl) (.num A _) hl5 hs5 (hltl.trans_le hst.next) (hlts.trans_le hst.next) hJ5 hpp
    refine ⟨env', st', vd', ?_, h2, h3, h4, h5, h6, h7, hst.trans h8, h9⟩
    rw [ints_cons, loop_cons, step]
    exact h1

/-- One row: `diag = get_elem(i, start)`, the loop over `j`, `self._storage[i, i] = diag`. -/
theorem factor_row (start i : ℕ) (hsi : start ≤ i) (hi : i < n) (s : ℕ → ℕ → ℝ) (r : List (ℕ × ℕ)) (env : Env) (st : St W) {attrs : Env} (rest : List PStmt)
    (he : FactorEnv env l vg start) (hei : env "i" = some (.int i))
    (hl : st.heap l = some (.inst "LDLTMgr" attrs)) (hat : attrs "_storage" = some (.ref ls)) (hs : st.heap ls = some (.square n s)) (hltl : l < st.next) (hlts : ls < st.next)
    (hJ : J r st) (hp : ∀ k, start ≤ k → k < i → s k k ≠ 0) :
    ∃ env' st' vd, execs (mach A ext) (call (mach A ext) (fuel + 1)) ((loopBody Source.LdltMgr.LDLTMgr.factor.body).take 3 ++ rest) env st
        = execs (mach A ext) (call (mach A ext) (fuel + 1)) rest env' st'
      ∧ FactorEnv env' l vg start ∧ env' "i" = some (.int i) ∧ env' "diag" = some vd ∧ IsNum A (A.row elem start i s r).diag vd
      ∧ st'.heap l = some (.inst "LDLTMgr" attrs) ∧ st'.heap ls = some (.square n (A.row elem start i s r).storage) ∧ J (A.row elem start i s r).reads st' ∧ Step (· = ls) st st'
      ∧ ∀ k, start ≤ k → k < i → (A.row elem start i s r).storage k k ≠ 0 := by
  have hll : (l = ls) = False := by simp; rintro rfl; rw [hl] at hs; simp [Obj.square] at hs
  obtain ⟨v, t1, h1, hv, hJ1, hst1⟩ := hg.get hJ hi (show start < n by omega)
  have hl1 := (hst1.same l hltl not_false).trans hl
  have hs1 := (hst1.same ls hlts not_false).trans hs
  obtain ⟨env', t2, vd, h2, he2, hei2, hd2, hvd2, hs2, hJ2, hst2, hp2⟩ := row_loop hg start i (i - start) start ⟨s, elem i start, r ++ [(i, start)]⟩ le_rfl (by omega) hi (env.set "diag" v) t1 v
    ⟨by simp only [py, he.self], by simp only [py, he.get], by simp only [py, he.start], by simp only [py, he.range]⟩ (by simp only [py, hei]) (by simp only [py]) hv hl1 hat hs1 (hltl.trans_le hst1.next) (hlts.trans_le hst1.next) hJ1 hp
  have hl2 := (hst2.same l (hltl.trans_le hst1.next) (by simpa using hll)).trans hl1
  have hlts2 : ls < t2.next := (hlts.trans_le hst1.next).trans_le hst2.next
  have i1 := set_square (A := A) hs2 hi hi hvd2.1
  have hsub : ((i : ℤ) - (start : ℤ)).toNat = i - start := by omega
  set rs := forUp (A.rowStep elem start i) (i - start) start ⟨s, elem i start, r ++ [(i, start)]⟩ with hrs
  have hrow : A.row elem start i s r = { rs with storage := set2 rs.storage i i rs.diag } := rfl
  refine ⟨env', t2.put ls (.square n (set2 rs.storage i i rs.diag)), vd, ?_, he2, hei2, hd2, hrow ▸ hvd2, ?_, ?_, ?_, ?_, fun k hk1 hk2 => ?_⟩
  · simp only [loopBody, Source.LdltMgr.LDLTMgr.factor, List.take, List.cons_append, List.nil_append]
    simp only [rowBody, loopBody, Source.LdltMgr.LDLTMgr.factor] at h2
    simp only [py, he.self, he.get, he.start, he.range, hei, h1, hsub, h2, he2.self, hl2, hat, hei2, hd2, i1]
  · simp only [py, hll, hl2]
  · simp only [py, hrow]
  · exact hrow ▸ hg.keep hJ2 ((Frame.refl _ _).put _ (.inl (.inr rfl)))
  · exact ((hst1.mono nofun).trans hst2).trans ((Frame.refl (· = ls) t2).put _ (.inl rfl)).step
  · have : (A.row elem start i s r).storage k k = rs.storage k k := by simp only [hrow, set2]; rw [if_neg (by omega)]
    rw [this]
    exact hp2 k hk1 hk2

omit hg in
theorem row_diag (start i : ℕ) (s : ℕ → ℕ → ℝ) (r : List (ℕ × ℕ)) : (A.row elem start i s r).storage i i = (A.row elem start i s r).diag := by simp [Arith.row, set2]

/-- What the loop over `i` leaves behind. -/
structure Factored (l ls n : ℕ) (attrs : Env) (st : St W) (res : (ℕ → ℕ → ℝ) × (ℕ × ℕ) × List (ℕ × ℕ)) (J : List (ℕ × ℕ) → St W → Prop) (st' : St W) : Prop where
  obj : ∃ attrs', st'.heap l = some (.inst "LDLTMgr" attrs') ∧ attrs' "pos" = some (.tuple [.int res.2.1.1, .int res.2.1.2]) ∧ ∀ a, a ≠ "pos" → attrs' a = attrs a
  storage : st'.heap ls = some (.square n res.1)
  reads : J res.2.2 st'
  step : Step (fun k => k = l ∨ k = ls) st st'

/-- The loop over `i` of `factor`. -/
theorem factor_loop (hA : Literals A) (len i : ℕ) (hlen : i + len = n) (s : ℕ → ℕ → ℝ) (r : List (ℕ × ℕ)) (env : Env) (st : St W) {attrs : Env}
    (he : FactorEnv env l vg 0) (hl : st.heap l = some (.inst "LDLTMgr" attrs)) (hat : attrs "_storage" = some (.ref ls)) (hpos : attrs "pos" = some (.tuple [.int (0 : ℕ), .int (0 : ℕ)]))
    (hs : st.heap ls = some (.square n s)) (hltl : l < st.next) (hlts : ls < st.next) (hJ : J r st) (hp : ∀ k, k < i → s k k ≠ 0) :
    ∃ env' st', loop (turn (mach A ext) (call (mach A ext) (fuel + 1)) (.name "i") (loopBody Source.LdltMgr.LDLTMgr.factor.body)) (intsFrom i len) env st = .ok (.next env') st'
      ∧ FactorEnv env' l vg 0 ∧ Factored l ls n attrs st (A.factorLoop elem len i s r) J st' := by
  induction len generalizing i s r env st with
  | zero =>
    simp only [ints_zero, py, Arith.factorLoop]
    exact ⟨env, st, rfl, he, ⟨attrs, hl, hpos, fun _ _ => rfl⟩, hs, hJ, .refl _ _⟩
  | succ len ih =>
    obtain ⟨env', t, vd, h1, he1, hei1, hd1, hvd1, hl1, hs1, hJ1, hst1, hp1⟩ := factor_row hg 0 i (Nat.zero_le _) (by omega) s r (env.set "i" (.int i)) st ((loopBody Source.LdltMgr.LDLTMgr.factor.body).drop 3)
      ⟨by simp only [py, he.self], by simp only [py, he.get], by simp only [py, he.start], by simp only [py, he.range]⟩ (by simp only [py]) hl hat hs hltl hlts hJ fun k _ => hp k
    rw [List.take_append_drop] at h1
    have hltl1 := hltl.trans_le hst1.next
    have hlts1 := hlts.trans_le hst1.next
    have hll : (ls = l) = False := by simp; rintro rfl; rw [hl] at hs; simp [Obj.square] at hs
    have hst1' : Step (fun k => k = l ∨ k = ls) st t := hst1.mono fun _ h => .inr h
    rw [ints_cons, loop_cons, turn_apply, assign_name, rbind_ok, h1]
    simp only [loopBody, Source.LdltMgr.LDLTMgr.factor, List.drop, Arith.factorLoop]
    by_cases hd : (A.row elem 0 i s r).diag ≤ 0
    · have e1 : ((i : ℤ) + 1) = ((i + 1 : ℕ) : ℤ) := by push_cast; rfl
      simp only [py, hd1, cmp_le_real hvd1.2, hA.lit0, hd, he1.self, he1.start, hei1, hl1, e1]
      refine ⟨_, _, rfl, he1, ⟨_, heap_put_self _ _, ?_, fun a ha => ?_⟩, ?_, ?_, ?_⟩
      · simp only [py]
      · simp only [py, ha]
      · simp only [py, hll, hs1]
      · exact hg.keep hJ1 ((Frame.refl _ _).put _ (.inl (.inl rfl)))
      · exact hst1'.trans ((Frame.refl _ _).put _ (.inl (.inl rfl))).step
    · simp only [py, hd1, cmp_le_real hvd1.2, hA.lit0, hd]
      obtain ⟨env2, st2, h2, he2, hf⟩ := ih (i + 1) (by omega) (A.row elem 0 i s r).storage (A.row elem 0 i s r).reads env' t he1 hl1 hs1 hltl1 hlts1 hJ1 fun k hk => by
        rcases Nat.lt_succ_iff_lt_or_eq.mp hk with hk | rfl
        · exact hp1 k (Nat.zero_le _) hk
        · rw [row_diag]; exact fun h => hd h.le
      simp only [loopBody, Source.LdltMgr.LDLTMgr.factor] at h2
      exact ⟨env2, st2, h2, he2, hf.obj, hf.storage, hf.reads, hst1'.trans hf.step⟩

omit hg in
theorem semi_body : loopBody Source.LdltMgr.LDLTMgr.factor_with_allow_semidefinite.body
    = (loopBody Source.LdltMgr.LDLTMgr.factor.body).take 3 ++ (loopBody Source.LdltMgr.LDLTMgr.factor_with_allow_semidefinite.body).drop 3 := rfl

/-- The loop over `i` of `factor_with_allow_semidefinite`. -/
theorem semi_loop (hA : Literals A) (len i start : ℕ) (hsi : start ≤ i) (hlen : i + len = n) (s : ℕ → ℕ → ℝ) (r : List (ℕ × ℕ)) (env : Env) (st : St W) {attrs : Env}
    (he : FactorEnv env l vg start) (hl : st.heap l = some (.inst "LDLTMgr" attrs)) (hat : attrs "_storage" = some (.ref ls)) (hpos : attrs "pos" = some (.tuple [.int (0 : ℕ), .int (0 : ℕ)]))
    (hs : st.heap ls = some (.square n s)) (hltl : l < st.next) (hlts : ls < st.next) (hJ : J r st) (hp : ∀ k, start ≤ k → k < i → s k k ≠ 0) :
    ∃ env' st' start', loop (turn (mach A ext) (call (mach A ext) (fuel + 1)) (.name "i") (loopBody Source.LdltMgr.LDLTMgr.factor_with_allow_semidefinite.body)) (intsFrom i len) env st = .ok (.next env') st'
      ∧ FactorEnv env' l vg start' ∧ Factored l ls n attrs st (A.factorSemiLoop elem len i start s r) J st' := by
  induction len generalizing i start s r env st with
  | zero =>
    simp only [ints_zero, py, Arith.factorSemiLoop]
    exact ⟨env, st, start, rfl, he, ⟨attrs, hl, hpos, fun _ _ => rfl⟩, hs, hJ, .refl _ _⟩
  | succ len ih =>
    obtain ⟨env', t, vd, h1, he1, hei1, hd1, hvd1, hl1, hs1, hJ1, hst1, hp1⟩ := factor_row hg start i hsi (by omega) s r (env.set "i" (.int i)) st
      ((loopBody Source.LdltMgr.LDLTMgr.factor_with_allow_semidefinite.body).drop 3)
      ⟨by simp only [py, he.self], by simp only [py, he.get], by simp only [py, he.start], by simp only [py, he.range]⟩ (by simp only [py]) hl hat hs hltl hlts hJ hp
    have hltl1 := hltl.trans_le hst1.next
    have hlts1 := hlts.trans_le hst1.next
    have hll : (ls = l) = False := by simp; rintro rfl; rw [hl] at hs; simp [Obj.square] at hs
    have hst1' : Step (fun k => k = l ∨ k = ls) st t := hst1.mono fun _ h => .inr h
    have hl0 : Val.toReal (.num 0) = some 0 := rfl
    have e1 : ((i : ℤ) + 1) = ((i + 1 : ℕ) : ℤ) := by push_cast; rfl
    rw [ints_cons, loop_cons, turn_apply, assign_name, rbind_ok, semi_body, h1]
    simp only [loopBody, Source.LdltMgr.LDLTMgr.factor_with_allow_semidefinite, List.drop, Arith.factorSemiLoop]
    by_cases hd : (A.row elem start i s r).diag < 0
    · simp only [py, hd1, cmp_lt_real hvd1.2 hl0, ltReal, hA.lit0, hd, he1.self, he1.start, hei1, hl1, e1]
      refine ⟨_, _, start, rfl, he1, ⟨_, heap_put_self _ _, ?_, fun a ha => ?_⟩, ?_, ?_, ?_⟩
      · simp only [py]
      · simp only [py, ha]
      · simp only [py, hll, hs1]
      · exact hg.keep hJ1 ((Frame.refl _ _).put _ (.inl (.inl rfl)))
      · exact hst1'.trans ((Frame.refl _ _).put _ (.inl (.inl rfl))).step
    · by_cases hz : (A.row elem start i s r).diag = 0
      · rw [if_neg hd, if_pos hz]
        obtain ⟨env2, st2, start', h2, he2, hf⟩ := ih (i + 1) (i + 1) le_rfl (by omega) (A.row elem start i s r).storage (A.row elem start i s r).reads (env'.set "start" (.int ((i + 1 : ℕ) : ℤ))) t
          ⟨by simp only [py, he1.self], by simp only [py, he1.get], by simp only [py], by simp only [py, he1.range]⟩ hl1 hs1 hltl1 hlts1 hJ1 fun k hk hk' => absurd hk (by omega)
        rw [semi_body] at h2
        simp only [loopBody, Source.LdltMgr.LDLTMgr.factor_with_allow_semidefinite, List.drop] at h2
        refine ⟨env2, st2, start', ?_, he2, hf.obj, hf.storage, hf.reads, hst1'.trans hf.step⟩
        rw [← h2]
        simp only [py, hd1, cmp_lt_real hvd1.2 hl0, cmp_eq_real hvd1.2, ltReal, hA.lit0, hd, hz, hei1, e1, Int.cast_zero, lt_irrefl]
      · rw [if_neg hd, if_neg hz]
        obtain ⟨env2, st2, start', h2, he2, hf⟩ := ih (i + 1) start (by omega) (by omega) (A.row elem start i s r).storage (A.row elem start i s r).reads env' t he1 hl1 hs1 hltl1 hlts1 hJ1 fun k hk0 hk => by
          rcases Nat.lt_succ_iff_lt_or_eq.mp hk with hk | rfl
          · exact hp1 k hk0 hk
          · rw [row_diag]; exact hz
        rw [semi_body] at h2
        simp only [loopBody, Source.LdltMgr.LDLTMgr.factor_with_allow_semidefinite, List.drop] at h2
        refine ⟨env2, st2, start', ?_, he2, hf.obj, hf.storage, hf.reads, hst1'.trans hf.step⟩
        rw [← h2]
        simp only [py, hd1, cmp_lt_real hvd1.2 hl0, cmp_eq_real hvd1.2, ltReal, hA.lit0, hd, hz, Int.cast_zero]

omit hg in
/-- `is_spd()`. -/
theorem mgr_is_spd {st : St W} {attrs : Env} {p : ℕ × ℕ} (hl : st.heap l = some (.inst "LDLTMgr" attrs)) (hp : attrs "pos" = some (.tuple [.int p.1, .int p.2])) :
    call (mach A ext) (fuel + 1) (.meth (.ref l) "is_spd") [] st = .ok (.bool (p.2 == 0)) st := by
  rw [call_meth hl method_LDLTMgr_is_spd rfl]
  simp only [Source.LdltMgr.LDLTMgr.is_spd]
  simp only [py, hl, hp, Nat.cast_eq_zero]
  congr

omit hg in
/-- The object after a factorisation. -/
theorem Factored.mgr {st st' : St W} {attrs : Env} {m : LDLTMgr ℝ} {v : Val} {o : Obj} (h0 : MgrAt st l lw ls m) (ha : IsMgr attrs m lw ls) (hn : n = m.ndim)
    {res : (ℕ → ℕ → ℝ) × (ℕ × ℕ) × List (ℕ × ℕ)} (h : Factored l ls n (attrs.set "pos" v) (st.put l o) res J st') : MgrAt st' l lw ls { m with storage := res.1, pos := res.2.1 } := by
  obtain ⟨⟨attrs', h1, h2, h3⟩, hs, -, hst⟩ := h
  have hle : st.next ≤ st'.next := hst.next
  obtain ⟨hlw, hls, hws⟩ := h0.ne
  refine ⟨⟨attrs', h1, h2, ?_, ?_, ?_, fun a ha' => ?_⟩, ?_, hn ▸ hs, h0.ltl.trans_le hle, h0.ltw.trans_le hle, h0.lts.trans_le hle⟩
  · rw [h3 _ (by decide)]; simp only [py, ha.wit]
  · rw [h3 _ (by decide)]; simp only [py, ha.ndim]
  · rw [h3 _ (by decide)]; simp only [py, ha.storage]
  · have hap : a ≠ "pos" := by rintro rfl; exact ha' (by simp)
    rw [h3 a hap, Env.set, if_neg hap, ha.only a ha']
  · have hlw' : (lw = l) = False := by simpa [eq_comm] using hlw
    rw [hst.same lw h0.ltw (by tauto)]
    simp only [py, hlw', h0.wit]

/-- `factor(get_elem)`. -/
theorem mgr_factor (hA : Literals A) {st : St W} {m : LDLTMgr ℝ} (hm : MgrAt st l lw ls m) (hn : n = m.ndim) (hJ : J [] st) :
    ∃ st', call (mach A ext) (fuel + 2) (.meth (.ref l) "factor") [vg] st = .ok (.bool (A.factor m elem).2.1) st'
      ∧ MgrAt st' l lw ls (A.factor m elem).1 ∧ J (A.factor m elem).2.2 st' ∧ Step (fun k => k = l ∨ k = ls) st st' := by
  obtain ⟨attrs, hl, ha⟩ := hm.obj
  have hls : (ls = l) = False := by simpa [eq_comm] using hm.ne.2.1
  set t := st.put l (.inst "LDLTMgr" (attrs.set "pos" (.tuple [.int 0, .int 0]))) with ht
  have hlt : t.heap l = some (.inst "LDLTMgr" (attrs.set "pos" (.tuple [.int 0, .int 0]))) := heap_put_self _ _
  have hJt : J [] t := hg.keep hJ ((Frame.refl _ _).put _ (.inl (.inl rfl)))
  have hst : Step (fun k => k = l ∨ k = ls) st t := ((Frame.refl _ _).put _ (.inl (.inl rfl))).step
  obtain ⟨env', st', h1, he1, hf⟩ := factor_loop hg hA n 0 (Nat.zero_add n) m.storage [] (((Env.empty.set "self" (.ref l)).set "get_elem" vg).set "start" (.int 0)) t
    ⟨by simp only [py], by simp only [py], by simp only [py], by simp only [py]⟩ hlt (by simp only [py, ha.storage]) (by simp only [py])
    (by simp only [ht, py, hls, hm.storage, hn]) hm.ltl hm.lts hJt nofun
  obtain ⟨attrs', hl', hp', ho'⟩ := hf.obj
  have hspd := mgr_is_spd (A := A) (ext := ext) (fuel := fuel) hl' hp'
  have hno : attrs' "is_spd" = none := by rw [ho' _ (by decide)]; simp only [py]; exact ha.only _ (by decide)
  refine ⟨st', ?_, ?_, ?_, hst.trans hf.step⟩
  · rw [call_meth hl method_LDLTMgr_factor rfl]
    simp only [loopBody, Source.LdltMgr.LDLTMgr.factor, Nat.cast_zero] at h1 ⊢
    simp only [py, hl, ← ht, hlt, ha.ndim, Int.toNat_natCast, ← hn, h1, he1.self, hl', hno, hspd]
    simp only [Arith.factor, LDLTMgr.isSpd, hn]
  · have := hf.mgr hm ha hn
    rw [hn] at this
    exact this
  · simp only [Arith.factor, ← hn]; exact hf.reads

/-- `factor_with_allow_semidefinite(get_elem)`. -/
theorem mgr_factor_semi (hA : Literals A) {st : St W} {m : LDLTMgr ℝ} (hm : MgrAt st l lw ls m) (hn : n = m.ndim) (hJ : J [] st) :
    ∃ st', call (mach A ext) (fuel + 2) (.meth (.ref l) "factor_with_allow_semidefinite") [vg] st = .ok (.bool (A.factorSemi m elem).2.1) st'
      ∧ MgrAt st' l lw ls (A.factorSemi m elem).1 ∧ J (A.factorSemi m elem).2.2 st' ∧ Step (fun k => k = l ∨ k = ls) st st' := by
  obtain ⟨attrs, hl, ha⟩ := hm.obj
  have hls : (ls = l) = False := by simpa [eq_comm] using hm.ne.2.1
  set t := st.put l (.inst "LDLTMgr" (attrs.set "pos" (.tuple [.int 0, .int 0]))) with ht
  have hlt : t.heap l = some (.inst "LDLTMgr" (attrs.set "pos" (.tuple [.int 0, .int 0]))) := heap_put_self _ _
  have hJt : J [] t := hg.keep hJ ((Frame.refl _ _).put _ (.inl (.inl rfl)))
  have hst : Step (fun k => k = l ∨ k = ls) st t := ((Frame.refl _ _).put _ (.inl (.inl rfl))).step
  obtain ⟨env', st', start', h1, he1, hf⟩ := semi_loop hg hA n 0 0 le_rfl (Nat.zero_add n) m.storage [] (((Env.empty.set "self" (.ref l)).set "get_elem" vg).set "start" (.int 0)) t
    ⟨by simp only [py], by simp only [py], by simp only [py], by simp only [py]⟩ hlt (by simp only [py, ha.storage]) (by simp only [py])
    (by simp only [ht, py, hls, hm.storage, hn]) hm.ltl hm.lts hJt nofun
  obtain ⟨attrs', hl', hp', ho'⟩ := hf.obj
  have hspd := mgr_is_spd (A := A) (ext := ext) (fuel := fuel) hl' hp'
  have hno : attrs' "is_spd" = none := by rw [ho' _ (by decide)]; simp only [py]; exact ha.only _ (by decide)
  refine ⟨st', ?_, ?_, ?_, hst.trans hf.step⟩
  · rw [call_meth hl method_LDLTMgr_factor_with_allow_semidefinite rfl]
    simp only [loopBody, Source.LdltMgr.LDLTMgr.factor_with_allow_semidefinite, Nat.cast_zero] at h1 ⊢
    simp only [py, hl, ← ht, hlt, ha.ndim, Int.toNat_natCast, ← hn, h1, he1.self, hl', hno, hspd]
    simp only [Arith.factorSemi, LDLTMgr.isSpd, hn]
  · have := hf.mgr hm ha hn
    rw [hn] at this
    exact this
  · simp only [Arith.factorSemi, ← hn]; exact hf.reads

end

end Ellalgo.Py
