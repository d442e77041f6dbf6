import Verif.Py.Refine.User
import Verif.Props.RoundedStable
import Verif.Props.RoundedRun
import Verif.Props.EllHistory
import Verif.Props.Containment

/-!
# Properties of the text of `ell.py`, `ell_calc.py` and `ell_calc_core.py`

The evaluator of `Py/Semantics` runs the text of the source files on a heap. From there the theorems about the model become theorems about the text.
-/

namespace Ellalgo.Py

open Matrix Spec

variable {W : Type} {n : ℕ}

/-- The literals of the three files are doubles. -/
theorem literals_double : Literals (Arith.ieee 53) where
  zero := by rw [ieee_rnd]; exact_mod_cast rbN 0 (by norm_num)
  half := by rw [ieee_rnd]; simpa using rb 1 1 (by norm_num)
  one := by rw [ieee_rnd]; exact_mod_cast rbN 1 (by norm_num)
  two := by rw [ieee_rnd]; exact_mod_cast rbN 2 (by norm_num)

/-- Dimensions below `2^53` are doubles. -/
theorem dimension_double (hn : n < 2 ^ 53) : (Arith.ieee 53).rnd n = n := by
  have h : (n : ℝ) < 2 ^ 53 := by exact_mod_cast hn
  simpa [ieee_rnd] using rbN (n : ℤ) (by simpa [abs_of_nonneg] using h)

/-- The name of a method. -/
def methodName : Method → String
  | .bias => "update_bias_cut"
  | .central => "update_central_cut"
  | .q => "update_q"

/-- A caller that makes a new array for every gradient, calls the method, and catches exceptions. `none`: the evaluator does not know what to do. -/
noncomputable def script (mc : Machine W) (fuel l : ℕ) : List (Method × Cut n) → St W → Option (List (Except String Val) × St W)
  | [], st => some ([], st)
  | (m, cut) :: t, st =>
    match call mc fuel (.meth (.ref l) (methodName m)) [.tuple [.ref st.next, choiceVal cut.2]] (st.alloc (.vec n cut.1)) with
    | .ok v st' => (script mc fuel l t st').map fun r => (.ok v :: r.1, r.2)
    | .exc e st' => (script mc fuel l t st').map fun r => (.error e :: r.1, r.2)
    | .stuck => none

/-- A status or an exception as the caller sees it. -/
def seen : Except Fault CutStatus → Except String Val
  | .ok s => .ok (statusVal s)
  | .error f => .error (excOf f)

/-- **C97.** One call of a method of the text on an ellipsoid of the heap: the outcome, the ellipsoid afterwards, and what is left alone. -/
theorem C97_call {A : Arith} (hA : Literals A) {ext : ℕ → String → List Val → M W Val} {st : St W} {l lm lx : ℕ} {e : Ell n} (he : EllAt A st l lm lx e)
    (m : Method) {cut : Cut n} {v : Val} (hv : IsCut st cut v) (hq : m = .q → ∀ bs, cut.2 ≠ .seq (none :: bs)) (fuel : ℕ) :
    ∃ st', call (mach A ext) (fuel + 7) (.meth (.ref l) (methodName m)) [v] st = outcome statusVal (A.update e m cut).2 st'
      ∧ EllAt A st' l lm lx (A.update e m cut).1 ∧ Frame (fun k => k = l ∨ k = lm ∨ k = lx) st st' := by
  cases m with
  | bias => exact ell_update_bias_cut hA he hv fuel
  | central => exact ell_update_central_cut hA he hv (fuel + 2)
  | q => exact ell_update_q hA he hv fuel (hq rfl)

/-- **C97.** Any history of calls of the text: every call returns or raises what the model says, in any arithmetic, and the object on the heap is the one of the model. -/
theorem C97_history {A : Arith} (hA : Literals A) {ext : ℕ → String → List Val → M W Val} (fuel : ℕ) (hist : List (Method × Cut n))
    (hq : ∀ p ∈ hist, p.1 = .q → ∀ bs, p.2.2 ≠ .seq (none :: bs)) {st : St W} {l lm lx : ℕ} {e : Ell n} (he : EllAt A st l lm lx e) :
    ∃ st', script (mach A ext) (fuel + 7) l hist st = some ((A.statuses e hist).map seen, st')
      ∧ EllAt A st' l lm lx (A.run e hist) ∧ Frame (fun k => k = l ∨ k = lm ∨ k = lx) st st' := by
  induction hist generalizing st e with
  | nil => exact ⟨st, rfl, he, .refl _ _⟩
  | cons p t ih =>
    obtain ⟨m, cut⟩ := p
    have hv : IsCut (st.alloc (.vec n cut.1)) cut (.tuple [.ref st.next, choiceVal cut.2]) :=
      ⟨st.next, _, rfl, Nat.lt_succ_self _, heap_alloc_self _, isBeta_choice _ _⟩
    obtain ⟨s1, h1, h2, h3⟩ := C97_call hA (ext := ext) (he.alloc (.vec n cut.1)) m hv (hq _ List.mem_cons_self) fuel
    obtain ⟨s2, h4, h5, h6⟩ := ih (fun p hp => hq p (List.mem_cons_of_mem _ hp)) h2
    have hf : Frame (fun k => k = l ∨ k = lm ∨ k = lx) st s1 := ⟨(Nat.le_succ _).trans h3.next, h3.world, fun k hk h =>
      (h3.same k (hk.trans (Nat.lt_succ_self _)) h).trans (heap_alloc_ne hk.ne _)⟩
    refine ⟨s2, ?_, h5, hf.trans h6⟩
    simp only [script, h1, Arith.statuses]
    cases hr : (A.update e m cut).2 <;> simp only [outcome, pure_apply, exc_apply, h4, Option.map_some, List.map_cons, seen]

theorem exact_run (e : Ell n) (hist : List (Method × Cut n)) : Arith.exact.run e hist = (e.run hist).1 := by
  induction hist generalizing e with
  | nil => rfl
  | cons p t ih =>
    obtain ⟨m, cut⟩ := p
    simp only [Arith.run, Ell.run, C90_exact.2.1, ih]

theorem exact_statuses (e : Ell n) (hist : List (Method × Cut n)) : Arith.exact.statuses e hist = (e.run hist).2.map fun r => r.1 := by
  induction hist generalizing e with
  | nil => rfl
  | cons p t ih =>
    obtain ⟨m, cut⟩ := p
    simp only [Arith.statuses, Ell.run, C90_exact.2.1, ih, List.map_cons]

/-- **C97.** From the text alone, in exact arithmetic: `Ell(val, x)` with positive `val`, then any history of strict cuts; the object on the heap is a genuine ellipsoid. -/
theorem C97_positive {ext : ℕ → String → List Val → M W Val} {st : St W} (fuel : ℕ) (hn : 2 ≤ n) {val : InitVal n}
    (hval : match val with | .scalar κ => 0 < κ | .diag d => ∀ i, 0 < d i) {v : Val} (hv : IsInit Arith.exact st val v) {lx : ℕ} {x : Vec n} (hx : st.heap lx = some (.vec n x)) (hlt : lx < st.next) :
    ∃ s1 lm e, call (mach Arith.exact ext) (fuel + 3) (.glob "Ell") [v, .ref lx] st = .ok (.ref st.next) s1 ∧ EllAt Arith.exact s1 st.next lm lx e
      ∧ Ell.init val x = .ok e
      ∧ ∀ hist, StrictRun e hist → (∀ p ∈ hist, p.1 = .q → ∀ bs, p.2.2 ≠ .seq (none :: bs)) → ∃ s2 out, ∃ e' : Ell n, script (mach Arith.exact ext) (fuel + 7) st.next hist s1 = some (out, s2)
        ∧ EllAt Arith.exact s2 st.next lm lx e' ∧ e'.mq.PosDef ∧ 0 < e'.kappa := by
  obtain ⟨e, he⟩ := (C60_init_rejects val x).2 hn
  have he' : Arith.exact.ellInit val x = .ok e := he
  obtain ⟨s1, h1, h2, h3⟩ := ell_init literals_exact (ext := ext) fuel rfl hv hx hlt
  rw [he'] at h1
  obtain ⟨lm, -, h4⟩ := h3 e he'
  refine ⟨s1, lm, e, h1, h4, he, fun hist hs hq => ?_⟩
  obtain ⟨s2, h5, h6, -⟩ := C97_history literals_exact (ext := ext) fuel hist hq h4
  rw [exact_run] at h6
  exact ⟨s2, _, _, h5, h6, C08_spd_over_history val hval x e he hist hs⟩

/-- The hypotheses of `C97_positive` for the unit disc around an array at location 0 of the heap. -/
example : ∃ s1 lm e, call (mach Arith.exact fun _ _ _ => M.stuck) 3 (.glob "Ell") [.int 1, .ref 0] (⟨fun _ => some (.vec 2 ![3, 4]), 1, ()⟩ : St Unit) = .ok (.ref 1) s1
    ∧ EllAt Arith.exact s1 1 lm 0 e ∧ Ell.init (.scalar 1) ![3, 4] = .ok e := by
  obtain ⟨s1, lm, e, h1, h2, h3, -⟩ := C97_positive (n := 2) (ext := fun _ _ _ => M.stuck) (st := (⟨fun _ => some (.vec 2 ![3, 4]), 1, ()⟩ : St Unit)) 0 le_rfl
    (val := .scalar (Arith.exact.rnd (1 : ℤ))) (by simp [Arith.exact]) (.int 1) (lx := 0) rfl zero_lt_one
  refine ⟨s1, lm, e, h1, h2, ?_⟩
  simpa [Arith.exact] using h3

/-- **C97.** A deep cut of the text loses no solution: if `update_bias_cut` returns `CutStatus.Success`, the ellipsoid on the heap afterwards contains every point of the one before that satisfies the cut. -/
theorem C97_deep_cut {ext : ℕ → String → List Val → M W Val} {st st' : St W} {l lm lx : ℕ} {e : Ell n} (he : EllAt Arith.exact st l lm lx e) (hw : e.WF)
    {g : Vec n} {β : ℝ} {lg : ℕ} (hg : st.heap lg = some (.vec n g)) (hlt : lg < st.next) (fuel : ℕ)
    (h : call (mach Arith.exact ext) (fuel + 7) (.meth (.ref l) "update_bias_cut") [.tuple [.ref lg, .num β]] st = .ok (.glob "CutStatus.Success") st') :
    ∃ e', EllAt Arith.exact st' l lm lx e' ∧ e.region ∩ halfSpace g β e.xc ⊆ e'.hull ∧
      (β * β < e'.tsq → e.region ∩ halfSpace g β e.xc ⊆ e'.region ∧ e'.WF) := by
  obtain ⟨s1, h1, h2, -⟩ := ell_update_bias_cut literals_exact (ext := ext) he (cut := (g, .scalar β)) ⟨lg, _, rfl, hlt, hg, .scalar β⟩ fuel
  rw [h] at h1
  have hx := C90_exact.2.1 e .bias (g, .scalar β)
  simp only [Arith.update, Ell.update] at hx
  rw [hx] at h1 h2
  rcases hr : e.updateBiasCut (g, .scalar β) with ⟨e', f | s⟩
  · rw [hr] at h1; simp [outcome, exc_apply] at h1
  · rw [hr] at h1 h2
    simp only [outcome, pure_apply, Res.ok.injEq] at h1
    obtain ⟨h1, rfl⟩ := h1
    cases s <;> simp [statusVal] at h1
    exact ⟨e', h2, C01_deep_cut_keeps_solutions e hw g β e' hr⟩

/-- The hypotheses of `C97_deep_cut` on a heap with a centre and a gradient, after `Ell(1, x)`. -/
example : ∃ (s1 s2 : St Unit) (lm : ℕ), EllAt Arith.exact s1 2 lm 0 unitDisc ∧ unitDisc.WF ∧ s1.heap 1 = some (.vec 2 ![1, 0]) ∧ 1 < s1.next ∧
    call (mach Arith.exact fun _ _ _ => M.stuck) 7 (.meth (.ref 2) "update_bias_cut") [.tuple [.ref 1, .num (1 / 4)]] s1 = .ok (.glob "CutStatus.Success") s2 := by
  let st : St Unit := ⟨fun k => if k = 0 then some (.vec 2 0) else some (.vec 2 ![1, 0]), 2, ()⟩
  obtain ⟨s1, h1, h2, h3⟩ := ell_init (n := 2) (W := Unit) literals_exact (ext := fun _ _ _ => M.stuck) (st := st) 0 rfl
    (IsInit.num (1 : ℝ)) (lx := 0) (x := 0) rfl (by decide)
  obtain ⟨lm, -, h4⟩ := h3 unitDisc (C90_exact.1 _ _ |>.trans (by unfold Ell.init; rw [EllCalc.init_two_le le_rfl]; rfl))
  have hg : s1.heap 1 = some (.vec 2 ![1, 0]) := (h2.same 1 (by decide) not_false).trans rfl
  have hlt : 1 < s1.next := (show 1 < st.next by decide).trans_le h2.next
  obtain ⟨s2, h5, -, -⟩ := ell_update_bias_cut literals_exact (ext := fun _ _ _ => M.stuck) h4 (cut := (![1, 0], .scalar (1 / 4))) ⟨1, _, rfl, hlt, hg, .scalar _⟩ 0
  refine ⟨s1, s2, lm, h4, unitDisc_WF, hg, hlt, h5.trans ?_⟩
  have hx := C90_exact.2.1 unitDisc .bias (![1, 0], .scalar (1 / 4))
  simp only [Arith.update, Ell.update] at hx
  have h : unitDisc.updateBiasCut (![1, 0], .scalar (1 / 4)) = (_, .ok .success) :=
    Ell.updateCore_some e1_ne_zero unitDisc_omega_ne (by
      rw [unitDisc_tsq]
      exact EllCalc.calcBiasCut_success (u := true) (by norm_num) one_pos (by norm_num))
  rw [hx, h]; rfl

end Ellalgo.Py
