import Verif.Py.Lists
import Verif.Model.RoundedStable

/-!
# The loops of `_update_core` of `ell_stable.py`

Each loop computes what `Model/RoundedStable` says, on the arrays of the heap.
-/

set_option linter.unusedSimpArgs false

namespace Ellalgo.Py

variable {W σ : Type} {n : ℕ}

/-- The statements after the first loop. -/
def afterLoop : List PStmt → List PStmt
  | .for_ _ _ _ :: ss => ss
  | _ :: ss => afterLoop ss
  | [] => []

/-- A loop `for i in range(lo, lo + len)` that takes the turns of `forUp`. -/
theorem loop_up {body : Val → Env → M W Flow} (f : ℕ → σ → σ) (R : σ → Env → St W → Prop) {lo len : ℕ} {s : σ} {env : Env} {st : St W}
    (step : ∀ i s env st, lo ≤ i → i < lo + len → R s env st → ∃ env' st', body (.int (i : ℤ)) env st = .ok (.next env') st' ∧ R (f i s) env' st') (h : R s env st) :
    ∃ env' st', loop body (intsFrom (lo : ℤ) len) env st = .ok (.next env') st' ∧ R (forUp f len lo s) env' st' := by
  induction len generalizing lo s env st with
  | zero => exact ⟨env, st, rfl, h⟩
  | succ len ih =>
    obtain ⟨env1, st1, h1, hR1⟩ := step lo s env st le_rfl (by omega) h
    obtain ⟨env2, st2, h2, hR2⟩ := ih (lo := lo + 1) (fun i s env st h1 h2 => step i s env st (by omega) (by omega)) hR1
    refine ⟨env2, st2, ?_, hR2⟩
    rw [ints_cons, loop_cons, h1]
    exact h2

/-- A loop `for i in range(hi, lo, -1)` that takes the turns of `forDown`. -/
theorem loop_down {body : Val → Env → M W Flow} (f : ℕ → σ → σ) (R : σ → Env → St W → Prop) {lo hi : ℕ} {s : σ} {env : Env} {st : St W}
    (step : ∀ i s env st, lo < i → i ≤ hi → R s env st → ∃ env' st', body (.int (i : ℤ)) env st = .ok (.next env') st' ∧ R (f i s) env' st') (h : R s env st) :
    ∃ env' st', loop body (intsDown (hi : ℤ) (hi - lo)) env st = .ok (.next env') st' ∧ R (forDown lo f hi s) env' st' := by
  induction hi generalizing s env st with
  | zero => exact ⟨env, st, by rw [Nat.zero_sub]; rfl, h⟩
  | succ hi ih =>
    by_cases hlo : lo < hi + 1
    · obtain ⟨env1, st1, h1, hR1⟩ := step (hi + 1) s env st hlo le_rfl h
      obtain ⟨env2, st2, h2, hR2⟩ := ih (fun i s env st h1 h2 => step i s env st h1 (by omega)) hR1
      refine ⟨env2, st2, ?_, by rw [forDown, if_pos hlo]; exact hR2⟩
      rw [show hi + 1 - lo = hi - lo + 1 by omega, ints_down_cons, loop_cons, h1]
      exact h2
    · exact ⟨env, st, by rw [show hi + 1 - lo = 0 by omega]; rfl, by rw [forDown, if_neg hlo]; exact h⟩

/-- Only variables with these names have changed. -/
def Keeps (names : List String) (env env' : Env) : Prop := ∀ a ∉ names, env' a = env a

theorem Keeps.set {names : List String} {env env' : Env} (h : Keeps names env env') {x : String} (hx : x ∈ names) (v : Val) : Keeps names env (env'.set x v) :=
  fun a ha => by
    have hne : a ≠ x := by rintro rfl; exact ha hx
    rw [Env.set, if_neg hne]
    exact h a ha

theorem Keeps.refl (names : List String) (env : Env) : Keeps names env env := fun _ _ => rfl

/-- The statements of `_update_core`. -/
abbrev coreBody : List PStmt := Source.EllStable.EllStable._update_core.body

variable {A : Arith} {ext : ℕ → String → List Val → M W Val} {fuel : ℕ} {l lm lw lz lv : ℕ} {attrs env0 : Env} {st0 : St W}

/-! ### Forward substitution -/

/-- In the loops of the forward substitution. -/
structure FwdAt (env0 : Env) (st0 : St W) (n lm lw : ℕ) (s : (ℕ → ℕ → ℝ) × (ℕ → ℝ)) (env : Env) (st : St W) : Prop where
  keeps : Keeps ["i", "j"] env0 env
  mq : st.heap lm = some (.square n s.1)
  w : st.heap lw = some (.line n s.2)
  frame : Frame (fun k => k = lm ∨ k = lw) st0 st

theorem fwd_turn (hself : env0 "self" = some (.ref l)) (hil : env0 "inv_lower_g" = some (.ref lw)) (hl : st0.heap l = some (.inst "EllStable" attrs)) (hlt : l < st0.next) (ham : attrs "_mq" = some (.ref lm))
    (hlm : l ≠ lm) (hlw : l ≠ lw) (hmw : lm ≠ lw) {s : (ℕ → ℕ → ℝ) × (ℕ → ℝ)} {env : Env} {st : St W} {i j : ℕ} (hi : i < n) (hj : j < n) (h : FwdAt env0 st0 n lm lw s env st) (hej : env "j" = some (.int j)) :
    ∃ env' st', turn (mach A ext) (call (mach A ext) (fuel + 1)) (.name "i") (loopBody (loopBody coreBody)) (.int i) env st = .ok (.next env') st'
      ∧ FwdAt env0 st0 n lm lw (A.fwdStep j i s) env' st' ∧ env' "j" = some (.int j) := by
  have h1 : env "self" = some (.ref l) := (h.keeps _ (by decide)).trans hself
  have h2 : env "inv_lower_g" = some (.ref lw) := (h.keeps _ (by decide)).trans hil
  have h3 : st.heap l = some (.inst "EllStable" attrs) := (h.frame.same l hlt (by simp [hlm, hlw])).trans hl
  set t1 := st.put lm (.square n (set2 s.1 j i (A.mul (s.1 i j) (s.2 j)))) with ht1
  have hl1 : t1.heap l = some (.inst "EllStable" attrs) := by rw [ht1, heap_put_ne hlm, h3]
  have hm1 : t1.heap lm = some (.square n (set2 s.1 j i (A.mul (s.1 i j) (s.2 j)))) := heap_put_self _ _
  have hw1 : t1.heap lw = some (.line n s.2) := by rw [ht1, heap_put_ne hmw.symm, h.w]
  have i1 := item_square h.mq hi hj
  have i2 := item_line h.w hj
  have i3 := fun y => set_square (A := A) h.mq hj hi (v := .num y) rfl
  have i4 := item_line hw1 hi
  have i5 := item_square hm1 hj hi
  have i6 := fun y => set_line (A := A) hw1 hi (v := .num y) rfl
  refine ⟨env.set "i" (.int i), t1.put lw (.line n (set1 s.2 i (A.sub (s.2 i) (set2 s.1 j i (A.mul (s.1 i j) (s.2 j)) j i)))), ?_, ⟨h.keeps.set (by simp) _, ?_, heap_put_self _ _, ?_⟩, ?_⟩
  · clear_value t1
    simp only [loopBody, coreBody, Source.EllStable.EllStable._update_core]
    simp only [py, h1, h2, h3, ham, hej, i1, i2, i3, ← ht1, hl1, i4, i5, i6]
  · rw [heap_put_ne hmw, hm1]; rfl
  · exact (h.frame.put _ (.inl (.inl rfl))).put _ (.inl (.inr rfl))
  · simp only [py, hej]

theorem fwd_loop (hself : env0 "self" = some (.ref l)) (hil : env0 "inv_lower_g" = some (.ref lw)) (hrange : env0 "range" = none) (hl : st0.heap l = some (.inst "EllStable" attrs)) (hlt : l < st0.next)
    (ham : attrs "_mq" = some (.ref lm)) (han : attrs "_ndim" = some (.int n)) (hlm : l ≠ lm) (hlw : l ≠ lw) (hmw : lm ≠ lw) {mq : ℕ → ℕ → ℝ} {w : ℕ → ℝ} (hmq : st0.heap lm = some (.square n mq)) (hw : st0.heap lw = some (.line n w)) :
    ∃ env' st', loop (turn (mach A ext) (call (mach A ext) (fuel + 1)) (.name "j") (loopBody coreBody)) (intsFrom 0 (n - 1)) env0 st0 = .ok (.next env') st' ∧ FwdAt env0 st0 n lm lw (A.fwd n mq w) env' st' := by
  refine loop_up (lo := 0) _ (FwdAt env0 st0 n lm lw) (fun j s env st _ hj h => ?_) ⟨.refl _ _, hmq, hw, .refl _ _⟩
  have h1 : env "self" = some (.ref l) := (h.keeps _ (by decide)).trans hself
  have h2 : env "range" = none := (h.keeps _ (by decide)).trans hrange
  have h3 : st.heap l = some (.inst "EllStable" attrs) := (h.frame.same l hlt (by simp [hlm, hlw])).trans hl
  obtain ⟨env', st', h4, h5⟩ := loop_up (lo := j + 1) (len := n - (j + 1)) (fun i s => A.fwdStep j i s) (fun s env st => FwdAt env0 st0 n lm lw s env st ∧ env "j" = some (.int j))
    (fun i s env st h1 h2 h => fwd_turn (A := A) (ext := ext) (fuel := fuel) hself hil hl hlt ham hlm hlw hmw (i := i) (j := j) (by omega) (by omega) h.1 h.2)
    (s := s) (env := env.set "j" (.int j)) (st := st) ⟨⟨h.keeps.set (by simp) _, h.mq, h.w, h.frame⟩, by simp only [py]⟩
  refine ⟨env', st', ?_, h5.1⟩
  have e1 : (j : ℤ) + 1 = ((j + 1 : ℕ) : ℤ) := by push_cast; rfl
  have e2 : ((n : ℤ) - ((j + 1 : ℕ) : ℤ)).toNat = n - (j + 1) := by omega
  simp only [loopBody, coreBody, Source.EllStable.EllStable._update_core] at h4 ⊢
  simp only [py, h1, h2, h3, han, e1, e2, h4]

/-! ### Multiplication by the inverse diagonal -/

/-- In a loop that changes one array. -/
structure LineAt (names : List String) (env0 : Env) (st0 : St W) (n lz : ℕ) (z : ℕ → ℝ) (env : Env) (st : St W) : Prop where
  keeps : Keeps names env0 env
  z : st.heap lz = some (.line n z)
  frame : Frame (fun k => k = lz) st0 st

theorem diag_loop (hself : env0 "self" = some (.ref l)) (hz : env0 "inv_diag_inv_lower_g" = some (.ref lz)) (hl : st0.heap l = some (.inst "EllStable" attrs)) (hlt : l < st0.next) (hltm : lm < st0.next)
    (ham : attrs "_mq" = some (.ref lm)) (hlz : l ≠ lz) (hmz : lm ≠ lz) {mq : ℕ → ℕ → ℝ} {z : ℕ → ℝ} (hmq : st0.heap lm = some (.square n mq)) (hz0 : st0.heap lz = some (.line n z)) :
    ∃ env' st', loop (turn (mach A ext) (call (mach A ext) (fuel + 1)) (.name "i") (loopBody (afterLoop coreBody))) (intsFrom 0 n) env0 st0 = .ok (.next env') st'
      ∧ LineAt ["i"] env0 st0 n lz (A.invDiag n mq z) env' st' := by
  refine loop_up (lo := 0) _ (LineAt ["i"] env0 st0 n lz) (fun i z env st _ hi h => ?_) ⟨.refl _ _, hz0, .refl _ _⟩
  have h1 : env "self" = some (.ref l) := (h.keeps _ (by decide)).trans hself
  have h2 : env "inv_diag_inv_lower_g" = some (.ref lz) := (h.keeps _ (by decide)).trans hz
  have h3 : st.heap l = some (.inst "EllStable" attrs) := (h.frame.same l hlt hlz).trans hl
  have h4 : st.heap lm = some (.square n mq) := (h.frame.same lm hltm hmz).trans hmq
  have hi' : i < n := by omega
  have i1 := item_line h.z hi'
  have i2 := item_square h4 hi' hi'
  have i3 := fun y => set_line (A := A) h.z hi' (v := .num y) rfl
  refine ⟨env.set "i" (.int i), st.put lz (.line n (set1 z i (A.mul (z i) (mq i i)))), ?_, h.keeps.set (by simp) _, heap_put_self _ _, h.frame.put _ (.inl rfl)⟩
  simp only [loopBody, afterLoop, coreBody, Source.EllStable.EllStable._update_core]
  simp only [py, h1, h2, h3, ham, i1, i2, i3]

/-! ### Backward substitution -/

theorem bwd_loop (hself : env0 "self" = some (.ref l)) (hz : env0 "g_t" = some (.ref lz)) (hrange : env0 "range" = none) (hl : st0.heap l = some (.inst "EllStable" attrs)) (hlt : l < st0.next) (hltm : lm < st0.next)
    (ham : attrs "_mq" = some (.ref lm)) (han : attrs "_ndim" = some (.int n)) (hlz : l ≠ lz) (hmz : lm ≠ lz) {mq : ℕ → ℕ → ℝ} {z : ℕ → ℝ} (hmq : st0.heap lm = some (.square n mq)) (hz0 : st0.heap lz = some (.line n z)) :
    ∃ env' st', loop (turn (mach A ext) (call (mach A ext) (fuel + 1)) (.name "i") (loopBody (afterLoop (afterLoop coreBody)))) (intsDown ((n - 1 : ℕ) : ℤ) (n - 1 - 0)) env0 st0 = .ok (.next env') st'
      ∧ LineAt ["i", "j"] env0 st0 n lz (A.bwd n mq z) env' st' := by
  refine loop_down (lo := 0) _ (LineAt ["i", "j"] env0 st0 n lz) (fun i z env st hi0 hi h => ?_) ⟨.refl _ _, hz0, .refl _ _⟩
  have h1 : env "self" = some (.ref l) := (h.keeps _ (by decide)).trans hself
  have h2 : env "range" = none := (h.keeps _ (by decide)).trans hrange
  have h3 : st.heap l = some (.inst "EllStable" attrs) := (h.frame.same l hlt hlz).trans hl
  have e1 : ((i : ℤ) - 1) = ((i - 1 : ℕ) : ℤ) := by omega
  obtain ⟨env', st', h4, h5⟩ := loop_up (body := turn (mach A ext) (call (mach A ext) (fuel + 1)) (.name "j") (loopBody (loopBody (afterLoop (afterLoop coreBody)))))
    (lo := i) (len := n - i) (fun j gt => set1 gt (i - 1) (A.sub (gt (i - 1)) (A.mul (mq j (i - 1)) (gt j))))
    (fun s env st => LineAt ["i", "j"] env0 st0 n lz s env st ∧ env "i" = some (.int i))
    (fun j z env st h1 h2 h => by
      obtain ⟨h, hi⟩ := h
      have h1 : env "self" = some (.ref l) := (h.keeps _ (by decide)).trans hself
      have h2 : env "g_t" = some (.ref lz) := (h.keeps _ (by decide)).trans hz
      have h3 : st.heap l = some (.inst "EllStable" attrs) := (h.frame.same l hlt hlz).trans hl
      have h4 : st.heap lm = some (.square n mq) := (h.frame.same lm hltm hmz).trans hmq
      have hjn : j < n := by omega
      have hin : i - 1 < n := by omega
      have i1 := item_line h.z hin
      have i2 := item_square h4 hjn hin
      have i3 := item_line h.z hjn
      have i4 := fun y => set_line (A := A) h.z hin (v := .num y) rfl
      refine ⟨env.set "j" (.int j), _, ?_, ⟨h.keeps.set (by simp) _, heap_put_self _ (.line n _), h.frame.put _ (.inl rfl)⟩, by simp only [py, hi]⟩
      simp only [loopBody, afterLoop, coreBody, Source.EllStable.EllStable._update_core]
      simp only [py, h1, h2, h3, hi, e1, ham, i1, i2, i3, i4])
    (s := z) (env := env.set "i" (.int i)) (st := st) ⟨⟨h.keeps.set (by simp) _, h.z, h.frame⟩, by simp only [py]⟩
  refine ⟨env', st', ?_, h5.1⟩
  have e2 : ((n : ℤ) - (i : ℤ)).toNat = n - i := by omega
  simp only [loopBody, afterLoop, coreBody, Source.EllStable.EllStable._update_core] at h4 ⊢
  simp only [py, h1, h2, h3, han, e2, h4]

/-! ### The rank-one update -/

/-- In the loops of the rank-one update. -/
structure RankAt (env0 : Env) (st0 : St W) (n lm lv : ℕ) (s : EllStable.RankState ℝ) (env : Env) (st : St W) : Prop where
  keeps : Keeps ["j", "k", "p", "temp", "newt", "beta2", "oldt"] env0 env
  oldt : env "oldt" = some (.num s.oldt)
  mq : st.heap lm = some (.square n s.mq)
  v : st.heap lv = some (.line n s.v)
  frame : Frame (fun k => k = lm ∨ k = lv) st0 st

/-- In the inner loop. -/
structure InnerAt (env0 : Env) (st0 : St W) (n lm lv j : ℕ) (beta2 newt : ℝ) (s : (ℕ → ℕ → ℝ) × (ℕ → ℝ)) (env : Env) (st : St W) : Prop where
  keeps : Keeps ["j", "k", "p", "temp", "newt", "beta2", "oldt"] env0 env
  ej : env "j" = some (.int j)
  eb : env "beta2" = some (.num beta2)
  en : env "newt" = some (.num newt)
  mq : st.heap lm = some (.square n s.1)
  v : st.heap lv = some (.line n s.2)
  frame : Frame (fun k => k = lm ∨ k = lv) st0 st

theorem inner_turn (hself : env0 "self" = some (.ref l)) (hv : env0 "v" = some (.ref lv)) (hl : st0.heap l = some (.inst "EllStable" attrs)) (hlt : l < st0.next) (ham : attrs "_mq" = some (.ref lm))
    (hlm : l ≠ lm) (hlv : l ≠ lv) (hmv : lm ≠ lv) {beta2 newt : ℝ} {s : (ℕ → ℕ → ℝ) × (ℕ → ℝ)} {env : Env} {st : St W} {k j : ℕ} (hk : k < n) (hj : j < n) (h : InnerAt env0 st0 n lm lv j beta2 newt s env st) :
    ∃ env' st', turn (mach A ext) (call (mach A ext) (fuel + 1)) (.name "k") (loopBody (loopBody (afterLoop (afterLoop (afterLoop coreBody))))) (.int k) env st = .ok (.next env') st'
      ∧ InnerAt env0 st0 n lm lv j beta2 newt (A.rankInner j beta2 k s) env' st' := by
  have h1 : env "self" = some (.ref l) := (h.keeps _ (by decide)).trans hself
  have h2 : env "v" = some (.ref lv) := (h.keeps _ (by decide)).trans hv
  have h3 : st.heap l = some (.inst "EllStable" attrs) := (h.frame.same l hlt (by simp [hlm, hlv])).trans hl
  set t1 := st.put lv (.line n (set1 s.2 k (A.sub (s.2 k) (s.1 j k)))) with ht1
  have hl1 : t1.heap l = some (.inst "EllStable" attrs) := by rw [ht1, heap_put_ne hlv, h3]
  have hv1 : t1.heap lv = some (.line n (set1 s.2 k (A.sub (s.2 k) (s.1 j k)))) := heap_put_self _ _
  have hm1 : t1.heap lm = some (.square n s.1) := by rw [ht1, heap_put_ne hmv, h.mq]
  have i1 := item_line h.v hk
  have i2 := item_square h.mq hj hk
  have i3 := fun y => set_line (A := A) h.v hk (v := .num y) rfl
  have i4 := item_square hm1 hk hj
  have i5 := item_line hv1 hk
  have i6 := fun y => set_square (A := A) hm1 hk hj (v := .num y) rfl
  refine ⟨env.set "k" (.int k), t1.put lm (.square n (set2 s.1 k j (A.add (s.1 k j) (A.mul beta2 (set1 s.2 k (A.sub (s.2 k) (s.1 j k)) k))))), ?_,
    ⟨h.keeps.set (by simp) _, by simp only [py, h.ej], by simp only [py, h.eb], by simp only [py, h.en], heap_put_self _ _, ?_, ?_⟩⟩
  · have hb := h.eb
    have hej := h.ej
    clear_value t1
    simp only [loopBody, afterLoop, coreBody, Source.EllStable.EllStable._update_core]
    simp only [py, h1, h2, h3, ham, hej, hb, i1, i2, i3, ← ht1, hl1, i4, i5, i6]
  · rw [heap_put_ne hmv.symm, hv1]; rfl
  · exact (h.frame.put _ (.inl (.inr rfl))).put _ (.inl (.inl rfl))

theorem rank_failed (z : ℕ → ℝ) {s : EllStable.RankState ℝ} (h : s.failed = true) (len j : ℕ) : forUp (A.rankStep n z) len j s = s := by
  induction len generalizing j with
  | zero => rfl
  | succ len ih => rw [forUp, Arith.rankStep, if_pos h, ih]

theorem rank_loop (hself : env0 "self" = some (.ref l)) (hv : env0 "v" = some (.ref lv)) (hz : env0 "inv_diag_inv_lower_g" = some (.ref lz)) (hrange : env0 "range" = none)
    (hl : st0.heap l = some (.inst "EllStable" attrs)) (hlt : l < st0.next) (hltz : lz < st0.next) (ham : attrs "_mq" = some (.ref lm)) (han : attrs "_ndim" = some (.int n))
    (hlm : l ≠ lm) (hlv : l ≠ lv) (hmv : lm ≠ lv) (hzm : lz ≠ lm) (hzv : lz ≠ lv) {z : ℕ → ℝ} (hz0 : st0.heap lz = some (.line n z))
    (len : ℕ) {j : ℕ} (hjn : j + len = n) {s : EllStable.RankState ℝ} {env : Env} {st : St W} (hs : s.failed = false) (h : RankAt env0 st0 n lm lv s env st) :
    if (forUp (A.rankStep n z) len j s).failed then
      ∃ st', loop (turn (mach A ext) (call (mach A ext) (fuel + 1)) (.name "j") (loopBody (afterLoop (afterLoop (afterLoop coreBody))))) (intsFrom (j : ℤ) len) env st = .exc "ZeroDivisionError" st'
        ∧ st'.heap lm = some (.square n (forUp (A.rankStep n z) len j s).mq) ∧ Frame (fun k => k = lm ∨ k = lv) st0 st'
    else
      ∃ env' st', loop (turn (mach A ext) (call (mach A ext) (fuel + 1)) (.name "j") (loopBody (afterLoop (afterLoop (afterLoop coreBody))))) (intsFrom (j : ℤ) len) env st = .ok (.next env') st'
        ∧ RankAt env0 st0 n lm lv (forUp (A.rankStep n z) len j s) env' st' := by
  induction len generalizing j s env st with
  | zero =>
    rw [forUp, hs, if_neg (by simp)]
    exact ⟨env, st, rfl, h⟩
  | succ len ih =>
    have h1 : env "self" = some (.ref l) := (h.keeps _ (by decide)).trans hself
    have h2 : env "v" = some (.ref lv) := (h.keeps _ (by decide)).trans hv
    have h3 : env "inv_diag_inv_lower_g" = some (.ref lz) := (h.keeps _ (by decide)).trans hz
    have h4 : env "range" = none := (h.keeps _ (by decide)).trans hrange
    have h5 : st.heap l = some (.inst "EllStable" attrs) := (h.frame.same l hlt (by simp [hlm, hlv])).trans hl
    have h6 : st.heap lz = some (.line n z) := (h.frame.same lz hltz (by simp [hzm, hzv])).trans hz0
    have ho := h.oldt
    have hj : j < n := by omega
    have i1 := item_line h.v hj
    have i2 := item_line h6 hj
    have i3 := item_square h.mq hj hj
    have i4 := fun y => set_square (A := A) h.mq hj hj (v := .num y) rfl
    set newt := A.add s.oldt (A.mul (s.v j) (z j)) with hnewt
    by_cases h0 : newt = 0
    · have hstep : A.rankStep n z j s = { s with failed := true } := by
        rw [Arith.rankStep, if_neg (by simp [hs])]; simp only [← hnewt, h0, if_true]
      rw [forUp, hstep, rank_failed z rfl, if_pos rfl]
      refine ⟨st, ?_, h.mq, h.frame⟩
      rw [ints_cons, loop_cons]
      simp only [loopBody, afterLoop, coreBody, Source.EllStable.EllStable._update_core]
      simp only [py, h1, h2, h3, i1, i2, ho, ← hnewt, h0]
    · set mq1 := set2 s.mq j j (A.mul (s.mq j j) (A.div s.oldt newt)) with hmq1
      have hstep : A.rankStep n z j s = { mq := (forRange (j + 1) n (A.rankInner j (A.div (z j) newt)) (mq1, s.v)).1, v := (forRange (j + 1) n (A.rankInner j (A.div (z j) newt)) (mq1, s.v)).2, oldt := newt, failed := false } := by
        rw [Arith.rankStep, if_neg (by simp [hs])]; simp only [← hnewt, h0, if_false, ← hmq1]
      set env1 : Env := ((((env.set "j" (.int j)).set "p" (.num (s.v j))).set "temp" (.num (z j))).set "newt" (.num newt)).set "beta2" (.num (A.div (z j) newt)) with henv1
      set t1 := st.put lm (.square n mq1) with ht1
      obtain ⟨env', st', h7, h8⟩ := loop_up (lo := j + 1) (len := n - (j + 1)) (A.rankInner j (A.div (z j) newt)) (InnerAt env0 st0 n lm lv j (A.div (z j) newt) newt)
        (fun k s env st h1 h2 h => inner_turn (A := A) (ext := ext) (fuel := fuel) hself hv hl hlt ham hlm hlv hmv (k := k) (j := j) (by omega) (by omega) h)
        (s := (mq1, s.v)) (env := env1) (st := t1)
        ⟨((((h.keeps.set (by simp) _).set (by simp) _).set (by simp) _).set (by simp) _).set (by simp) _, by simp only [henv1, py], by simp only [henv1, py], by simp only [henv1, py], heap_put_self _ _,
          by rw [ht1, heap_put_ne hmv.symm, h.v], h.frame.put _ (.inl (.inl rfl))⟩
      have hl1 : t1.heap l = some (.inst "EllStable" attrs) := by rw [ht1, heap_put_ne hlm, h5]
      have en := h8.en
      have := ih (j := j + 1) (by omega) (s := A.rankStep n z j s) (env := env'.set "oldt" (.num newt)) (st := st') (by rw [hstep])
        (by rw [hstep]; exact ⟨h8.keeps.set (by simp) _, by simp only [py], h8.mq, h8.v, h8.frame⟩)
      rw [forUp]
      have hturn : turn (mach A ext) (call (mach A ext) (fuel + 1)) (.name "j") (loopBody (afterLoop (afterLoop (afterLoop coreBody)))) (.int j) env st = .ok (.next (env'.set "oldt" (.num newt))) st' := by
        have e1 : (j : ℤ) + 1 = ((j + 1 : ℕ) : ℤ) := by push_cast; rfl
        have e2 : ((n : ℤ) - ((j + 1 : ℕ) : ℤ)).toNat = n - (j + 1) := by omega
        rw [henv1] at h7
        clear_value env1 t1
        simp only [loopBody, afterLoop, coreBody, Source.EllStable.EllStable._update_core] at h7 ⊢
        simp only [py, h1, h2, h3, h4, i1, i2, ho, ← hnewt, h0, h5, ham, i3, i4, ← hmq1, ← ht1, e1, hl1, han, e2, h7, en]
      have hloop : loop (turn (mach A ext) (call (mach A ext) (fuel + 1)) (.name "j") (loopBody (afterLoop (afterLoop (afterLoop coreBody))))) (intsFrom (j : ℤ) (len + 1)) env st
          = loop (turn (mach A ext) (call (mach A ext) (fuel + 1)) (.name "j") (loopBody (afterLoop (afterLoop (afterLoop coreBody))))) (intsFrom ((j + 1 : ℕ) : ℤ) len) (env'.set "oldt" (.num newt)) st' := by
        rw [ints_cons, loop_cons, hturn]; rfl
      rw [hloop]
      exact this

end Ellalgo.Py
