import Verif.Spec.Loops
import Mathlib.Tactic.NormNum
import Mathlib.Order.Basic

/-!
# C20, C21, C24, C25, C28, C29: the control loops

The theorems hold for every oracle (stateful, possibly raising), every search space, every number type.
-/

namespace Ellalgo

open CuttingPlane

variable {O S X C G T D : Type*}

section Feas

variable {omega : OracleFeas O X C} {sp : SearchSpace S X C T} {lt : T → T → Bool} {tol : T}

/-- Why a run of `cutting_plane_feas` ends, in terms of the states `o1, s1` after `k` completed iterations. -/
inductive FeasEnd (omega : OracleFeas O X C) (sp : SearchSpace S X C T) (lt : T → T → Bool) (opts : Options T)
    (k : ℕ) (o1 : O) (s1 : S) : O → S → Except Fault (Option X × ℕ) → Prop
  /-- the iteration limit is reached -/
  | limit : k = opts.maxIters → FeasEnd omega sp lt opts k o1 s1 o1 s1 (.ok (none, k))
  /-- the oracle accepts the centre -/
  | found {o2} : k < opts.maxIters → omega o1 (sp.xc s1) = (o2, .ok none) →
      FeasEnd omega sp lt opts k o1 s1 o2 s1 (.ok (some (sp.xc s1), k))
  /-- the update fails or leaves `tsq` below the tolerance -/
  | stop {o2 s2 cut st} : k < opts.maxIters → omega o1 (sp.xc s1) = (o2, .ok (some cut)) →
      sp.updateBiasCut s1 cut = (s2, .ok st) → (st ≠ .success ∨ lt (sp.tsq s2) opts.tolerance = true) →
      FeasEnd omega sp lt opts k o1 s1 o2 s2 (.ok (none, k))
  /-- the oracle raises -/
  | oracleRaises {o2 f} : k < opts.maxIters → omega o1 (sp.xc s1) = (o2, .error f) →
      FeasEnd omega sp lt opts k o1 s1 o2 s1 (.error f)
  /-- the update raises -/
  | updateRaises {o2 s2 cut f} : k < opts.maxIters → omega o1 (sp.xc s1) = (o2, .ok (some cut)) →
      sp.updateBiasCut s1 cut = (s2, .error f) → FeasEnd omega sp lt opts k o1 s1 o2 s2 (.error f)

theorem feasLoop_spec (opts : Options T) {o : O} {s : S} :
    ∀ (fuel : ℕ) {l : List (X × C)} {o1 : O} {s1 : S}, FeasTrace omega sp lt opts.tolerance o s l o1 s1 →
      l.length + fuel = opts.maxIters →
      ∃ l' o2 s2, FeasTrace omega sp lt opts.tolerance o s l' o2 s2 ∧
        FeasEnd omega sp lt opts l'.length o2 s2 (feasLoop omega sp lt opts.tolerance fuel l.length o1 s1).1
          (feasLoop omega sp lt opts.tolerance fuel l.length o1 s1).2.1
          (feasLoop omega sp lt opts.tolerance fuel l.length o1 s1).2.2 := by
  intro fuel
  induction fuel with
  | zero => intro l o1 s1 h hl; exact ⟨l, o1, s1, h, .limit (by simpa using hl)⟩
  | succ fuel ih =>
    intro l o1 s1 h hl
    have hlt : l.length < opts.maxIters := by omega
    unfold feasLoop
    rcases h1 : omega o1 (sp.xc s1) with ⟨o2, f | _ | cut⟩
    · exact ⟨l, o1, s1, h, .oracleRaises hlt h1⟩
    · exact ⟨l, o1, s1, h, .found hlt h1⟩
    · rcases h2 : sp.updateBiasCut s1 cut with ⟨s2, f | st⟩
      · simp only [h2]; exact ⟨l, o1, s1, h, .updateRaises hlt h1 h2⟩
      · simp only [h2]
        by_cases hc : st ≠ .success ∨ lt (sp.tsq s2) opts.tolerance = true
        · rw [if_pos hc]; exact ⟨l, o1, s1, h, .stop hlt h1 h2 hc⟩
        · rw [if_neg hc]
          rw [not_or, not_not] at hc
          obtain ⟨rfl, hc⟩ := hc
          have := ih (h.step h1 h2 (by simpa using hc)) (by simp; omega)
          simpa using this

/-- Complete description of `cutting_plane_feas`: after some number of completed iterations it ends for exactly one of five
reasons. -/
theorem feas_spec (omega : OracleFeas O X C) (sp : SearchSpace S X C T) (lt : T → T → Bool) (o : O) (s : S)
    (opts : Options T) :
    ∃ l o1 s1, FeasTrace omega sp lt opts.tolerance o s l o1 s1 ∧
      FeasEnd omega sp lt opts l.length o1 s1 (feas omega sp lt o s opts).1
        (feas omega sp lt o s opts).2.1 (feas omega sp lt o s opts).2.2 :=
  feasLoop_spec opts opts.maxIters .start (by simp)

/-- **C20.** If `cutting_plane_feas` returns `(x, k)` with `x` not `None`, then after `k` completed iterations
(each: the oracle asked once at the then centre and answering a cut) the oracle was asked at `x` and answered `None`;
`x` is the centre of the final space; `k < max_iters`. -/
theorem C20_feas_returns_accepted (omega : OracleFeas O X C) (sp : SearchSpace S X C T)
    (lt : T → T → Bool) (o : O) (s : S) (opts : Options T) (o' : O) (s' : S) (x : X) (k : ℕ)
    (h : feas omega sp lt o s opts = (o', s', .ok (some x, k))) :
    x = sp.xc s' ∧ k < opts.maxIters ∧
    ∃ l o1, FeasTrace omega sp lt opts.tolerance o s l o1 s' ∧ l.length = k ∧ omega o1 x = (o', .ok none) := by
  obtain ⟨l, o1, s1, ht, he⟩ := feas_spec omega sp lt o s opts
  rw [h] at he
  simp only at he
  cases he with
  | found hk ho => exact ⟨rfl, hk, l, o1, ht, rfl, ho⟩

/-- **C21.** If it returns `(None, k)`: either `k = max_iters` and exactly `max_iters` consultations of the oracle all answered a cut,
or the oracle was consulted a `k+1`-st time and the update with its cut returned a status other than `Success` or left `tsq` below
the tolerance. -/
theorem C21_feas_gives_up_for_a_reason (omega : OracleFeas O X C) (sp : SearchSpace S X C T)
    (lt : T → T → Bool) (o : O) (s : S) (opts : Options T) (o' : O) (s' : S) (k : ℕ)
    (h : feas omega sp lt o s opts = (o', s', .ok (none, k))) :
    ∃ l o1 s1, FeasTrace omega sp lt opts.tolerance o s l o1 s1 ∧ l.length = k ∧
      ((k = opts.maxIters ∧ o' = o1 ∧ s' = s1) ∨
       (k < opts.maxIters ∧ ∃ cut st, omega o1 (sp.xc s1) = (o', .ok (some cut)) ∧
          sp.updateBiasCut s1 cut = (s', .ok st) ∧
          (st ≠ .success ∨ lt (sp.tsq s') opts.tolerance = true))) := by
  obtain ⟨l, o1, s1, ht, he⟩ := feas_spec omega sp lt o s opts
  rw [h] at he
  simp only at he
  cases he with
  | limit hk => exact ⟨l, _, _, ht, rfl, .inl ⟨hk, rfl, rfl⟩⟩
  | stop hk h1 h2 h3 => exact ⟨l, o1, s1, ht, rfl, .inr ⟨hk, _, _, h1, h2, h3⟩⟩

/-- If it raises, the exception comes from the oracle or from the update, before the iteration limit. -/
theorem C21_feas_raises (omega : OracleFeas O X C) (sp : SearchSpace S X C T)
    (lt : T → T → Bool) (o : O) (s : S) (opts : Options T) (o' : O) (s' : S) (f : Fault)
    (h : feas omega sp lt o s opts = (o', s', .error f)) :
    ∃ l o1 s1, FeasTrace omega sp lt opts.tolerance o s l o1 s1 ∧ l.length < opts.maxIters ∧
      ((omega o1 (sp.xc s1) = (o', .error f) ∧ s' = s1) ∨
       ∃ cut, omega o1 (sp.xc s1) = (o', .ok (some cut)) ∧ sp.updateBiasCut s1 cut = (s', .error f)) := by
  obtain ⟨l, o1, s1, ht, he⟩ := feas_spec omega sp lt o s opts
  rw [h] at he
  simp only at he
  cases he with
  | oracleRaises hk h1 => exact ⟨l, _, _, ht, hk, .inl ⟨h1, rfl⟩⟩
  | updateRaises hk h1 h2 => exact ⟨l, o1, s1, ht, hk, .inr ⟨_, h1, h2⟩⟩

/-- Traces of the same length from the same start are equal: the run is determined by oracle and space. -/
theorem FeasTrace.unique {o : O} {s : S} {l1 l2 : List (X × C)} {o1 o2 : O} {s1 s2 : S}
    (h1 : FeasTrace omega sp lt tol o s l1 o1 s1) (h2 : FeasTrace omega sp lt tol o s l2 o2 s2)
    (hl : l1.length = l2.length) : l1 = l2 ∧ o1 = o2 ∧ s1 = s2 := by
  induction h1 generalizing l2 o2 s2 with
  | start =>
    cases h2 with
    | start => exact ⟨rfl, rfl, rfl⟩
    | step => simp at hl
  | step t1 a1 b1 _ ih =>
    cases h2 with
    | start => simp at hl
    | step t2 a2 b2 _ =>
      obtain ⟨rfl, rfl, rfl⟩ := ih t2 (by simpa using hl)
      rw [a1] at a2
      simp only [Prod.mk.injEq, Except.ok.injEq, Option.some.injEq] at a2
      obtain ⟨rfl, rfl⟩ := a2
      rw [b1] at b2
      simp only [Prod.mk.injEq, and_true] at b2
      exact ⟨rfl, rfl, b2⟩

/-- The converse of C20: whenever a trace leads to an accepting consultation before the limit, that point is returned. -/
theorem C20_feas_returns_first_accepted {o : O} {s : S} {opts : Options T} {l : List (X × C)} {o1 o2 : O} {s1 : S}
    (h : FeasTrace omega sp lt opts.tolerance o s l o1 s1) (hk : l.length < opts.maxIters)
    (ha : omega o1 (sp.xc s1) = (o2, .ok none)) :
    feas omega sp lt o s opts = (o2, s1, .ok (some (sp.xc s1), l.length)) := by
  have key : ∀ {l o1 s1}, FeasTrace omega sp lt opts.tolerance o s l o1 s1 →
      ∀ fuel, l.length + fuel = opts.maxIters →
        feas omega sp lt o s opts = feasLoop omega sp lt opts.tolerance fuel l.length o1 s1 := by
    intro l o1 s1 h
    induction h with
    | start => intro fuel hf; simp at hf; subst hf; rfl
    | step t a b c ih =>
      intro fuel hf
      rw [ih (fuel + 1) (by simp at hf; omega)]
      rw [feasLoop]
      simp [a, b, c]
  rw [key h (opts.maxIters - l.length) (by omega)]
  obtain ⟨m, hm⟩ : ∃ m, opts.maxIters - l.length = m + 1 := ⟨opts.maxIters - l.length - 1, by omega⟩
  rw [hm, feasLoop, ha]

end Feas

/-- A toy search space on the integers for the examples: a cut moves the centre one down, `tsq` is 7. -/
def toySpace : SearchSpace ℤ ℤ Unit ℕ where
  xc s := s
  tsq _ := 7
  setXc _ x := x
  updateBiasCut s _ := (s - 1, .ok .success)
  updateCentralCut s _ := (s - 2, .ok .success)
  updateQ s _ := (s - 1, if s % 2 = 0 then .ok .noEffect else .ok .success)

/-- A stateful oracle that counts its calls and accepts nonpositive points. -/
def toyOracle : OracleFeas ℕ ℤ Unit := fun o x => (o + 1, .ok (if x ≤ 0 then none else some ()))

/-- C20 applies: found after three cuts, four calls. -/
example : feas toyOracle toySpace (· < ·) 0 3 ⟨10, 5⟩ = (4, 0, .ok (some 0, 3)) := by rfl

/-- C21 applies, both reasons. -/
example : feas toyOracle toySpace (· < ·) 0 3 ⟨2, 5⟩ = (2, 1, .ok (none, 2)) ∧
    feas toyOracle toySpace (· < ·) 0 3 ⟨10, 9⟩ = (1, 2, .ok (none, 0)) := ⟨rfl, rfl⟩

/-! ### C24, C25 -/

section Optim

variable {omega : OracleOptim O X C G} {sp : SearchSpace S X C T} {lt : T → T → Bool} {tol : T}

theorem bestOf_snoc (g0 : G) (l : List (OptimEvent X C G)) (e : OptimEvent X C G) :
    bestOf g0 (l ++ [e]) = match e.gamma1 with
      | none => bestOf g0 l
      | some g => (some e.x, g) := by
  unfold bestOf
  rw [List.filter_append]
  rcases h : e.gamma1 with _ | g <;> simp [h]

/-- Why a run of `cutting_plane_optim` ends after the consultations `l` were completed. -/
inductive OptimEnd (omega : OracleOptim O X C G) (sp : SearchSpace S X C T) (lt : T → T → Bool) (opts : Options T)
    (g0 : G) (l : List (OptimEvent X C G)) (o1 : O) (s1 : S) :
    O → S → Except Fault (Option X × G × ℕ) → Prop
  | limit : l.length = opts.maxIters →
      OptimEnd omega sp lt opts g0 l o1 s1 o1 s1 (.ok ((bestOf g0 l).1, (bestOf g0 l).2, l.length))
  | stop {o2 s2 st} {e : OptimEvent X C G} : l.length < opts.maxIters → e.x = sp.xc s1 → e.gamma = (bestOf g0 l).2 →
      omega o1 e.x e.gamma = (o2, .ok (e.cut, e.gamma1)) →
      sp.updateFor s1 e = (s2, .ok st) → (st ≠ .success ∨ lt (sp.tsq s2) opts.tolerance = true) →
      OptimEnd omega sp lt opts g0 l o1 s1 o2 s2
        (.ok ((bestOf g0 (l ++ [e])).1, (bestOf g0 (l ++ [e])).2, l.length))
  | oracleRaises {o2 f} : l.length < opts.maxIters → omega o1 (sp.xc s1) (bestOf g0 l).2 = (o2, .error f) →
      OptimEnd omega sp lt opts g0 l o1 s1 o2 s1 (.error f)
  | updateRaises {o2 s2 f} {e : OptimEvent X C G} : l.length < opts.maxIters → e.x = sp.xc s1 →
      e.gamma = (bestOf g0 l).2 →
      omega o1 e.x e.gamma = (o2, .ok (e.cut, e.gamma1)) → sp.updateFor s1 e = (s2, .error f) →
      OptimEnd omega sp lt opts g0 l o1 s1 o2 s2 (.error f)

theorem optimLoop_spec (opts : Options T) {o : O} {s : S} {g0 : G} :
    ∀ (fuel : ℕ) {l : List (OptimEvent X C G)} {o1 : O} {s1 : S} {g1 : G} {x1 : Option X},
      OptimTrace omega sp lt opts.tolerance o s g0 l o1 s1 →
      bestOf g0 l = (x1, g1) → l.length + fuel = opts.maxIters →
      ∃ l' o2 s2, OptimTrace omega sp lt opts.tolerance o s g0 l' o2 s2 ∧
        OptimEnd omega sp lt opts g0 l' o2 s2 (optimLoop omega sp lt opts.tolerance fuel l.length o1 s1 g1 x1).1
          (optimLoop omega sp lt opts.tolerance fuel l.length o1 s1 g1 x1).2.1
          (optimLoop omega sp lt opts.tolerance fuel l.length o1 s1 g1 x1).2.2 := by
  intro fuel
  induction fuel with
  | zero =>
    intro l o1 s1 g1 x1 h hb hl
    refine ⟨l, o1, s1, h, ?_⟩
    have := OptimEnd.limit (omega := omega) (sp := sp) (lt := lt) (g0 := g0) (o1 := o1) (s1 := s1)
      (opts := opts) (l := l) (by simpa using hl)
    rw [hb] at this
    exact this
  | succ fuel ih =>
    intro l o1 s1 g1 x1 h hb hl
    have hlt : l.length < opts.maxIters := by omega
    have hg1 : (bestOf g0 l).2 = g1 := by rw [hb]
    unfold optimLoop
    rcases h1 : omega o1 (sp.xc s1) g1 with ⟨o2, f | ⟨cut, _ | g2⟩⟩
    · exact ⟨l, o1, s1, h, .oracleRaises hlt (by rw [hg1]; exact h1)⟩
    · let e : OptimEvent X C G := ⟨sp.xc s1, g1, cut, none⟩
      have hbe : bestOf g0 (l ++ [e]) = (x1, g1) := by rw [bestOf_snoc]; exact hb
      have hu : sp.updateFor s1 e = sp.updateBiasCut s1 cut := rfl
      rcases h2 : sp.updateBiasCut s1 cut with ⟨s2, f | st⟩
      · simp only [h2]
        exact ⟨l, o1, s1, h, .updateRaises (e := e) hlt rfl hg1.symm h1 (hu.trans h2)⟩
      · simp only [h2]
        by_cases hc : st ≠ .success ∨ lt (sp.tsq s2) opts.tolerance = true
        · rw [if_pos hc]
          have := OptimEnd.stop (omega := omega) (opts := opts) (g0 := g0) (e := e) hlt rfl hg1.symm h1
            (hu.trans h2) hc
          rw [hbe] at this
          exact ⟨l, o1, s1, h, this⟩
        · rw [if_neg hc]
          rw [not_or, not_not] at hc
          obtain ⟨rfl, hc⟩ := hc
          have := ih (h.step (e := e) rfl hg1.symm h1 (hu.trans h2) (by simpa using hc)) hbe (by simp; omega)
          simpa using this
    · let e : OptimEvent X C G := ⟨sp.xc s1, g1, cut, some g2⟩
      have hbe : bestOf g0 (l ++ [e]) = (some (sp.xc s1), g2) := by rw [bestOf_snoc]
      have hu : sp.updateFor s1 e = sp.updateCentralCut s1 cut := rfl
      rcases h2 : sp.updateCentralCut s1 cut with ⟨s2, f | st⟩
      · simp only [h2]
        exact ⟨l, o1, s1, h, .updateRaises (e := e) hlt rfl hg1.symm h1 (hu.trans h2)⟩
      · simp only [h2]
        by_cases hc : st ≠ .success ∨ lt (sp.tsq s2) opts.tolerance = true
        · rw [if_pos hc]
          have := OptimEnd.stop (omega := omega) (opts := opts) (g0 := g0) (e := e) hlt rfl hg1.symm h1
            (hu.trans h2) hc
          rw [hbe] at this
          exact ⟨l, o1, s1, h, this⟩
        · rw [if_neg hc]
          rw [not_or, not_not] at hc
          obtain ⟨rfl, hc⟩ := hc
          have := ih (h.step (e := e) rfl hg1.symm h1 (hu.trans h2) (by simpa using hc)) hbe (by simp; omega)
          simpa using this

/-- Complete description of `cutting_plane_optim`. -/
theorem optim_spec (omega : OracleOptim O X C G) (sp : SearchSpace S X C T) (lt : T → T → Bool) (o : O) (s : S)
    (g0 : G) (opts : Options T) :
    ∃ l o1 s1, OptimTrace omega sp lt opts.tolerance o s g0 l o1 s1 ∧
      OptimEnd omega sp lt opts g0 l o1 s1 (optim omega sp lt o s g0 opts).1
        (optim omega sp lt o s g0 opts).2.1 (optim omega sp lt o s g0 opts).2.2 :=
  optimLoop_spec opts opts.maxIters .start rfl (by simp)

/-- **C24.** The pair returned by `cutting_plane_optim` is the last value the oracle reported and the centre at which it reported
it (`(None, initial gamma)` if it never reported one); the oracle was consulted `min(k+1, max_iters)` times, each time with the
last value reported so far; the run ended at the limit, on a status other than `Success`, or on the tolerance. -/
theorem C24_optim_consistent_pair (omega : OracleOptim O X C G) (sp : SearchSpace S X C T)
    (lt : T → T → Bool) (o : O) (s : S) (g0 : G) (opts : Options T) (o' : O) (s' : S)
    (xb : Option X) (g : G) (k : ℕ)
    (h : optim omega sp lt o s g0 opts = (o', s', .ok (xb, g, k))) :
    ∃ l o1 s1, OptimTrace omega sp lt opts.tolerance o s g0 l o1 s1 ∧ l.length = k ∧
      ((k = opts.maxIters ∧ (xb, g) = bestOf g0 l ∧ s' = s1 ∧ o' = o1) ∨
       (k < opts.maxIters ∧ ∃ (e : OptimEvent X C G) (st : CutStatus), e.x = sp.xc s1 ∧ e.gamma = (bestOf g0 l).2 ∧
          omega o1 e.x e.gamma = (o', .ok (e.cut, e.gamma1)) ∧ sp.updateFor s1 e = (s', .ok st) ∧
          (st ≠ .success ∨ lt (sp.tsq s') opts.tolerance = true) ∧ (xb, g) = bestOf g0 (l ++ [e]))) := by
  obtain ⟨l, o1, s1, ht, he⟩ := optim_spec omega sp lt o s g0 opts
  rw [h] at he
  simp only at he
  cases he with
  | limit hk => exact ⟨l, _, _, ht, rfl, .inl ⟨hk, rfl, rfl, rfl⟩⟩
  | stop hk h1 h2 h3 h4 h5 => exact ⟨l, o1, s1, ht, rfl, .inr ⟨hk, _, _, h1, h2, h3, h4, h5, rfl⟩⟩

/-- Two oracles that agree on the reachable states and levels give the same run. -/
theorem optim_congr {omega omega' : OracleOptim O X C G} {sp : SearchSpace S X C T} {lt : T → T → Bool} {I : O → Prop} {J : G → Prop}
    (hI : ∀ o x g, I o → J g → I (omega o x g).1)
    (hJ : ∀ o x g o' cut g1, I o → J g → omega o x g = (o', .ok (cut, some g1)) → J g1)
    (heq : ∀ o x g, I o → J g → omega' o x g = omega o x g)
    {o : O} (ho : I o) {s : S} {g0 : G} (hg0 : J g0) (opts : Options T) :
    optim omega' sp lt o s g0 opts = optim omega sp lt o s g0 opts := by
  have key : ∀ (fuel niter : ℕ) (o : O) (s : S) (g : G) (xb : Option X), I o → J g →
      optimLoop omega' sp lt opts.tolerance fuel niter o s g xb = optimLoop omega sp lt opts.tolerance fuel niter o s g xb := by
    intro fuel
    induction fuel with
    | zero => intros; rfl
    | succ fuel ih =>
      intro niter o s g xb ho hg
      have hi := hI o (sp.xc s) g ho hg
      unfold optimLoop
      rw [heq o (sp.xc s) g ho hg]
      rcases h1 : omega o (sp.xc s) g with ⟨o2, f | ⟨cut, _ | g2⟩⟩
      · rfl
      · rw [h1] at hi
        rcases h2 : sp.updateBiasCut s cut with ⟨s2, f | st⟩
        · simp only [h2]
        · simp only [h2]
          split_ifs
          · rfl
          · exact ih _ _ _ _ _ hi hg
      · rw [h1] at hi
        rcases h2 : sp.updateCentralCut s cut with ⟨s2, f | st⟩
        · simp only [h2]
        · simp only [h2]
          split_ifs
          · rfl
          · exact ih _ _ _ _ _ hi (hJ _ _ _ _ _ _ ho hg h1)
  exact key _ _ _ _ _ _ ho hg0

/-- If every value the oracle reports is related by `P` to the point at which it was consulted (under an invariant `I` of the oracle's state and `J` of the level), so is the
returned pair. -/
theorem optim_best_spec_level {omega : OracleOptim O X C G} {sp : SearchSpace S X C T} {lt : T → T → Bool} {I : O → Prop}
    {J : G → Prop} {P : X → G → Prop} (hI : ∀ o x g, I o → I (omega o x g).1)
    (hP : ∀ o x g o' cut g1, I o → J g → omega o x g = (o', .ok (cut, some g1)) → J g1 ∧ P x g1)
    {o : O} (ho : I o) {s : S} {g0 : G} (hg0 : J g0) {opts : Options T} {o' : O} {s' : S} {xb : Option X} {g : G} {k : ℕ}
    (h : optim omega sp lt o s g0 opts = (o', s', .ok (xb, g, k))) :
    (xb = none ∧ g = g0) ∨ ∃ x, xb = some x ∧ P x g := by
  obtain ⟨l, o1, s1, ht, -, hend⟩ := C24_optim_consistent_pair omega sp lt o s g0 opts o' s' xb g k h
  have key : ∀ {l o1 s1}, OptimTrace omega sp lt opts.tolerance o s g0 l o1 s1 →
      I o1 ∧ J (bestOf g0 l).2 ∧ (((bestOf g0 l).1 = none ∧ (bestOf g0 l).2 = g0) ∨ ∃ x, (bestOf g0 l).1 = some x ∧ P x (bestOf g0 l).2) := by
    intro l o1 s1 ht
    induction ht with
    | start => exact ⟨ho, hg0, .inl ⟨rfl, rfl⟩⟩
    | @step l o1 s1 o2 s2 ev t a1 a2 a3 _ _ ih =>
      refine ⟨by have := hI _ ev.x ev.gamma ih.1; rwa [a3] at this, ?_⟩
      rw [bestOf_snoc]
      rcases hg : ev.gamma1 with _ | g
      · exact ih.2
      · rw [hg] at a3
        have := hP _ _ _ _ _ _ ih.1 (a2 ▸ ih.2.1) a3
        exact ⟨this.1, .inr ⟨_, rfl, this.2⟩⟩
  obtain ⟨hi, hj, hb⟩ := key ht
  rcases hend with ⟨-, he, -, -⟩ | ⟨-, ev, st, -, h2, h3, -, -, he⟩
  · rw [← he] at hb; exact hb
  · rw [bestOf_snoc] at he
    rcases hg : ev.gamma1 with _ | g1
    · rw [hg] at he; simp only at he; rw [← he] at hb; exact hb
    · rw [hg] at he h3
      simp only [Prod.mk.injEq] at he
      obtain ⟨rfl, rfl⟩ := he
      exact .inr ⟨_, rfl, (hP _ _ _ _ _ _ hi (h2 ▸ hj) h3).2⟩

/-- If every value the oracle reports is related by `P` to the point at which it was consulted (under an invariant of the oracle's state), so is the
returned pair. -/
theorem optim_best_spec {omega : OracleOptim O X C G} {sp : SearchSpace S X C T} {lt : T → T → Bool} {I : O → Prop}
    {P : X → G → Prop} (hI : ∀ o x g, I o → I (omega o x g).1)
    (hP : ∀ o x g o' cut g1, I o → omega o x g = (o', .ok (cut, some g1)) → P x g1)
    {o : O} (ho : I o) {s : S} {g0 : G} {opts : Options T} {o' : O} {s' : S} {xb : Option X} {g : G} {k : ℕ}
    (h : optim omega sp lt o s g0 opts = (o', s', .ok (xb, g, k))) :
    (xb = none ∧ g = g0) ∨ ∃ x, xb = some x ∧ P x g :=
  optim_best_spec_level (J := fun _ => True) hI (fun o x g o' cut g1 hi _ h => ⟨trivial, hP o x g o' cut g1 hi h⟩) ho trivial h

/-- An oracle that reports the value `10 - x` at even points and otherwise gives a feasibility cut. -/
def toyOptim : OracleOptim ℕ ℤ Unit ℤ := fun o x _ =>
  (o + 1, .ok ((), if x % 2 = 0 then some (10 - x) else none))

/-- C24 applies: centres 7, 6, 4 (central cuts move by two); values reported at 6 and 4. -/
example : optim toyOptim toySpace (· < ·) 0 7 (-100) ⟨3, 5⟩ = (3, 2, .ok (some 4, 6, 3)) := by rfl

/-- The `gamma`s passed to the oracle, in order. -/
def gammasOf (l : List (OptimEvent X C G)) : List G := l.map (·.gamma)

theorem OptimTrace.gamma_mono [Preorder G] {o : O} {s : S} {g0 : G}
    (hmono : ∀ o x γ o' cut γ1, omega o x γ = (o', .ok (cut, some γ1)) → γ ≤ γ1)
    {l : List (OptimEvent X C G)} {o1 : O} {s1 : S} (h : OptimTrace omega sp lt tol o s g0 l o1 s1) :
    (gammasOf l).Pairwise (· ≤ ·) ∧ (∀ γ ∈ gammasOf l, γ ≤ (bestOf g0 l).2) ∧ g0 ≤ (bestOf g0 l).2 := by
  induction h with
  | start => simp [gammasOf, bestOf]
  | @step l o1 s1 o2 s2 e t h1 h2 h3 _ _ ih =>
    obtain ⟨i1, i2, i3⟩ := ih
    have hle : (bestOf g0 l).2 ≤ (bestOf g0 (l ++ [e])).2 := by
      rw [bestOf_snoc]
      rcases hg : e.gamma1 with _ | g
      · simp
      · rw [hg, h2] at h3; exact hmono _ _ _ _ _ _ h3
    refine ⟨?_, ?_, i3.trans hle⟩
    · simp only [gammasOf, List.map_append, List.map_cons, List.map_nil] at i1 i2 ⊢
      rw [List.pairwise_append]
      refine ⟨i1, by simp, ?_⟩
      intro a ha b hb
      simp only [List.mem_singleton] at hb
      rw [hb, h2]; exact i2 a ha
    · intro γ hγ
      simp only [gammasOf, List.map_append, List.map_cons, List.map_nil, List.mem_append,
        List.mem_singleton] at hγ
      rcases hγ with hγ | rfl
      · exact (i2 γ hγ).trans hle
      · rw [h2]; exact hle

/-- **C25.** For any preorder on the objective values ("at least as good as"): if every reported value is at least as good as the one
passed in, the returned `gamma` is at least as good as the initial one, and there is a description of the run in which the values passed to
the oracle form a monotone sequence bounded by the returned value. -/
theorem C25_gamma_monotone [Preorder G] (omega : OracleOptim O X C G) (sp : SearchSpace S X C T)
    (lt : T → T → Bool) (o : O) (s : S) (g0 : G) (opts : Options T)
    (hmono : ∀ o x γ o' cut γ1, omega o x γ = (o', .ok (cut, some γ1)) → γ ≤ γ1) :
    (∀ l o1 s1, OptimTrace omega sp lt opts.tolerance o s g0 l o1 s1 → (gammasOf l).Pairwise (· ≤ ·) ∧
      ∀ γ ∈ gammasOf l, g0 ≤ γ) ∧
    ∀ o' s' xb g k, optim omega sp lt o s g0 opts = (o', s', .ok (xb, g, k)) → g0 ≤ g := by
  have pre : ∀ {l o1 s1}, OptimTrace omega sp lt opts.tolerance o s g0 l o1 s1 → ∀ γ ∈ gammasOf l, g0 ≤ γ := by
    intro l o1 s1 h
    induction h with
    | start => simp [gammasOf]
    | @step l o1 s1 o2 s2 e t h1 h2 h3 _ _ ih =>
      intro γ hγ
      simp only [gammasOf, List.map_append, List.map_cons, List.map_nil, List.mem_append,
        List.mem_singleton] at hγ
      rcases hγ with hγ | rfl
      · exact ih γ hγ
      · rw [h2]; exact (t.gamma_mono hmono).2.2
  refine ⟨fun l o1 s1 h => ⟨(h.gamma_mono hmono).1, pre h⟩, fun o' s' xb g k h => ?_⟩
  obtain ⟨l, o1, s1, ht, _, ⟨-, hb, -, -⟩ | ⟨-, e, st, -, h2, h3, -, -, hb⟩⟩ :=
    C24_optim_consistent_pair omega sp lt o s g0 opts o' s' xb g k h
  · have := (ht.gamma_mono hmono).2.2
    rw [← hb] at this; exact this
  · have := (ht.gamma_mono hmono).2.2
    rw [show g = (bestOf g0 (l ++ [e])).2 by rw [← hb], bestOf_snoc]
    rcases hg : e.gamma1 with _ | g
    · exact this
    · rw [hg, h2] at h3; exact this.trans (hmono _ _ _ _ _ _ h3)

/-- An oracle meeting the hypothesis of C25 that does report improvements. -/
def toyOptimMono : OracleOptim ℕ ℤ Unit ℤ := fun o x γ =>
  (o + 1, .ok ((), if γ ≤ 10 - x then some (10 - x) else none))

example : (∀ o x γ o' cut γ1, toyOptimMono o x γ = (o', .ok (cut, some γ1)) → γ ≤ γ1) ∧
    optim toyOptimMono toySpace (· < ·) 0 7 1 ⟨3, 5⟩ = (3, 1, .ok (some 3, 7, 3)) := by
  refine ⟨fun o x γ o' cut γ1 h => ?_, rfl⟩
  simp only [toyOptimMono, Prod.mk.injEq, Except.ok.injEq] at h
  obtain ⟨-, -, h⟩ := h
  split_ifs at h with hc
  cases h; exact hc

end Optim

/-! ### C28, C29 -/

section OptimQ

variable {omega : OracleOptimQ O X C G} {sp : SearchSpace S X C T} {lt : T → T → Bool} {tol : T}

theorem bestOfQ_snoc (g0 : G) (l : List (QEvent X C G)) (e : QEvent X C G) :
    bestOfQ g0 (l ++ [e]) = match e.ans.gamma1 with
      | none => bestOfQ g0 l
      | some g => (some e.ans.xq, g) := by
  unfold bestOfQ
  rw [List.filter_append]
  rcases h : e.ans.gamma1 with _ | g <;> simp [h]

theorem retryAfter_snoc (l : List (QEvent X C G)) (e : QEvent X C G) :
    retryAfter (l ++ [e]) = match e.status with
      | .success => false
      | .noEffect => true
      | _ => e.retry := by
  simp only [retryAfter, List.getLast?_append, List.getLast?_singleton, Option.some_or]
  cases e.status <;> rfl

/-- Why a run of `cutting_plane_optim_q` ends after the iterations `l` were completed. -/
inductive QEnd (omega : OracleOptimQ O X C G) (sp : SearchSpace S X C T) (lt : T → T → Bool) (opts : Options T)
    (g0 : G) (l : List (QEvent X C G)) (o1 : O) (s1 : S) :
    O → S → Except Fault (Option X × G × ℕ) → Prop
  | limit : l.length = opts.maxIters →
      QEnd omega sp lt opts g0 l o1 s1 o1 s1 (.ok ((bestOfQ g0 l).1, (bestOfQ g0 l).2, l.length))
  | stop {o2 s2} {e : QEvent X C G} : l.length < opts.maxIters → e.x = sp.xc s1 → e.gamma = (bestOfQ g0 l).2 →
      e.retry = retryAfter l → omega o1 e.x e.gamma e.retry = (o2, .ok e.ans) →
      sp.updateQ s1 e.ans.cut = (s2, .ok e.status) →
      (e.status = .noSoln ∨ (e.status = .noEffect ∧ e.ans.moreAlt = false) ∨ lt (sp.tsq s2) opts.tolerance = true) →
      QEnd omega sp lt opts g0 l o1 s1 o2 s2
        (.ok ((bestOfQ g0 (l ++ [e])).1, (bestOfQ g0 (l ++ [e])).2, l.length))
  | oracleRaises {o2 f} : l.length < opts.maxIters →
      omega o1 (sp.xc s1) (bestOfQ g0 l).2 (retryAfter l) = (o2, .error f) →
      QEnd omega sp lt opts g0 l o1 s1 o2 s1 (.error f)
  | updateRaises {o2 s2 a f} : l.length < opts.maxIters →
      omega o1 (sp.xc s1) (bestOfQ g0 l).2 (retryAfter l) = (o2, .ok a) → sp.updateQ s1 a.cut = (s2, .error f) →
      QEnd omega sp lt opts g0 l o1 s1 o2 s2 (.error f)

theorem optimQLoop_spec (opts : Options T) {o : O} {s : S} {g0 : G} :
    ∀ (fuel : ℕ) {l : List (QEvent X C G)} {o1 : O} {s1 : S} {g1 : G} {x1 : Option X} {r1 : Bool},
      QTrace omega sp lt opts.tolerance o s g0 l o1 s1 →
      bestOfQ g0 l = (x1, g1) → retryAfter l = r1 → l.length + fuel = opts.maxIters →
      ∃ l' o2 s2, QTrace omega sp lt opts.tolerance o s g0 l' o2 s2 ∧
        QEnd omega sp lt opts g0 l' o2 s2 (optimQLoop omega sp lt opts.tolerance fuel l.length o1 s1 g1 x1 r1).1
          (optimQLoop omega sp lt opts.tolerance fuel l.length o1 s1 g1 x1 r1).2.1
          (optimQLoop omega sp lt opts.tolerance fuel l.length o1 s1 g1 x1 r1).2.2 := by
  intro fuel
  induction fuel with
  | zero =>
    intro l o1 s1 g1 x1 r1 h hb _ hl
    refine ⟨l, o1, s1, h, ?_⟩
    have := QEnd.limit (omega := omega) (sp := sp) (lt := lt) (g0 := g0) (o1 := o1) (s1 := s1)
      (opts := opts) (l := l) (by simpa using hl)
    rw [hb] at this
    exact this
  | succ fuel ih =>
    intro l o1 s1 g1 x1 r1 h hb hr hl
    have hlt : l.length < opts.maxIters := by omega
    have hg1 : (bestOfQ g0 l).2 = g1 := by rw [hb]
    unfold optimQLoop
    rcases h1 : omega o1 (sp.xc s1) g1 r1 with ⟨o2, f | a⟩
    · exact ⟨l, o1, s1, h, .oracleRaises hlt (by rw [hg1, hr]; exact h1)⟩
    · rcases h2 : sp.updateQ s1 a.cut with ⟨s2, f | st⟩
      · simp only [h2]
        exact ⟨l, o1, s1, h, .updateRaises hlt (by rw [hg1, hr]; exact h1) h2⟩
      · let e : QEvent X C G := ⟨sp.xc s1, g1, r1, a, st⟩
        have hbe : bestOfQ g0 (l ++ [e]) = (if a.gamma1.isSome then some a.xq else x1, a.gamma1.getD g1) := by
          rw [bestOfQ_snoc]
          show (match a.gamma1 with | none => bestOfQ g0 l | some g => (some a.xq, g)) = _
          rcases a.gamma1 with _ | g
          · simpa using hb
          · simp
        have hstop : ∀ (hs : e.status = .noSoln ∨ (e.status = .noEffect ∧ e.ans.moreAlt = false) ∨
            lt (sp.tsq s2) opts.tolerance = true),
            QEnd omega sp lt opts g0 l o1 s1 o2 s2
              (.ok (if a.gamma1.isSome then some a.xq else x1, a.gamma1.getD g1, l.length)) := by
          intro hs
          have := QEnd.stop (omega := omega) (opts := opts) (g0 := g0) (e := e) hlt rfl hg1.symm hr.symm h1 h2 hs
          rw [hbe] at this
          exact this
        have hnext : ∀ r2, retryAfter (l ++ [e]) = r2 → e.status ≠ .noSoln →
            (e.status = .noEffect → e.ans.moreAlt = true) → lt (sp.tsq s2) opts.tolerance = false → _ :=
          fun r2 hr2 a1 a2 a3 => ih (h.step (e := e) rfl hg1.symm hr.symm h1 h2 a1 a2 a3) hbe hr2
            (by simp; omega)
        simp only [List.length_append, List.length_cons, List.length_nil, zero_add] at hnext
        have hra := retryAfter_snoc l e
        simp only [h2]
        rcases ht : lt (sp.tsq s2) opts.tolerance with _ | _
        · cases hst : st with
          | success =>
            simp only [Bool.false_eq_true, if_false]
            exact hnext false (by rw [hra]; simp [e, hst]) (by simp [e, hst]) (by simp [e, hst]) ht
          | noSoln =>
            exact ⟨l, o1, s1, h, hstop (by simp [e, hst])⟩
          | noEffect =>
            simp only
            by_cases hm : a.moreAlt = false
            · rw [if_pos hm]; exact ⟨l, o1, s1, h, hstop (by simp [e, hst, hm])⟩
            · rw [if_neg hm]
              simp only [Bool.false_eq_true, if_false]
              exact hnext true (by rw [hra]; simp [e, hst]) (by simp [e, hst]) (by simpa [e, hst] using hm) ht
          | unknown =>
            simp only [Bool.false_eq_true, if_false]
            exact hnext r1 (by rw [hra]; simp [e, hst]) (by simp [e, hst]) (by simp [e, hst]) ht
        · refine ⟨l, o1, s1, h, ?_⟩
          have := hstop (.inr (.inr ht))
          cases hst : st <;> simp only [if_true, ite_self] <;> exact this

/-- Complete description of `cutting_plane_optim_q`. -/
theorem optimQ_spec (omega : OracleOptimQ O X C G) (sp : SearchSpace S X C T) (lt : T → T → Bool) (o : O) (s : S)
    (g0 : G) (opts : Options T) :
    ∃ l o1 s1, QTrace omega sp lt opts.tolerance o s g0 l o1 s1 ∧
      QEnd omega sp lt opts g0 l o1 s1 (optimQ omega sp lt o s g0 opts).1
        (optimQ omega sp lt o s g0 opts).2.1 (optimQ omega sp lt o s g0 opts).2.2 :=
  optimQLoop_spec opts opts.maxIters .start rfl rfl (by simp)

/-- **C28, C29.** The run of `cutting_plane_optim_q` that returns `(x_best, gamma, k)`: it consists of `k` completed iterations
`l` (in which `retry` follows the protocol `retryAfter`, no update returned `NoSoln`, and every `NoEffect` came with more alternatives
announced), followed by nothing if `k = max_iters` or else by one last consultation, also following the protocol, whose update
returned `NoSoln`, or `NoEffect` without alternatives, or left `tsq` below the tolerance. The returned pair is the last
reported value with the `x_q` it came with. -/
theorem C29_optim_q_consistent_pair (omega : OracleOptimQ O X C G) (sp : SearchSpace S X C T)
    (lt : T → T → Bool) (o : O) (s : S) (g0 : G) (opts : Options T) (o' : O) (s' : S)
    (xb : Option X) (g : G) (k : ℕ)
    (h : optimQ omega sp lt o s g0 opts = (o', s', .ok (xb, g, k))) :
    ∃ l o1 s1, QTrace omega sp lt opts.tolerance o s g0 l o1 s1 ∧ l.length = k ∧
      ((k = opts.maxIters ∧ (xb, g) = bestOfQ g0 l ∧ s' = s1 ∧ o' = o1) ∨
       (k < opts.maxIters ∧ ∃ e : QEvent X C G, e.x = sp.xc s1 ∧ e.gamma = (bestOfQ g0 l).2 ∧
          e.retry = retryAfter l ∧ omega o1 e.x e.gamma e.retry = (o', .ok e.ans) ∧
          sp.updateQ s1 e.ans.cut = (s', .ok e.status) ∧
          (e.status = .noSoln ∨ (e.status = .noEffect ∧ e.ans.moreAlt = false) ∨
            lt (sp.tsq s') opts.tolerance = true) ∧
          (xb, g) = bestOfQ g0 (l ++ [e]))) := by
  obtain ⟨l, o1, s1, ht, he⟩ := optimQ_spec omega sp lt o s g0 opts
  rw [h] at he
  simp only at he
  cases he with
  | limit hk => exact ⟨l, _, _, ht, rfl, .inl ⟨hk, rfl, rfl, rfl⟩⟩
  | stop hk h1 h2 h3 h4 h5 h6 => exact ⟨l, o1, s1, ht, rfl, .inr ⟨hk, _, h1, h2, h3, h4, h5, h6, rfl⟩⟩

/-- If every value the oracle reports is related by `P` to the point `x_q` reported with it (under an invariant `I` of the oracle's state and `J` of the level), so is the
returned pair. -/
theorem optimQ_best_spec {omega : OracleOptimQ O X C G} {sp : SearchSpace S X C T} {lt : T → T → Bool} {I : O → Prop}
    {J : G → Prop} {P : X → G → Prop} (hI : ∀ o x g r, I o → I (omega o x g r).1)
    (hP : ∀ o x g r o' a g1, I o → J g → omega o x g r = (o', .ok a) → a.gamma1 = some g1 → J g1 ∧ P a.xq g1)
    {o : O} (ho : I o) {s : S} {g0 : G} (hg0 : J g0) {opts : Options T} {o' : O} {s' : S} {xb : Option X} {g : G} {k : ℕ}
    (h : optimQ omega sp lt o s g0 opts = (o', s', .ok (xb, g, k))) :
    (xb = none ∧ g = g0) ∨ ∃ x, xb = some x ∧ P x g := by
  obtain ⟨l, o1, s1, ht, -, hend⟩ := C29_optim_q_consistent_pair omega sp lt o s g0 opts o' s' xb g k h
  have key : ∀ {l o1 s1}, QTrace omega sp lt opts.tolerance o s g0 l o1 s1 →
      I o1 ∧ J (bestOfQ g0 l).2 ∧
        (((bestOfQ g0 l).1 = none ∧ (bestOfQ g0 l).2 = g0) ∨ ∃ x, (bestOfQ g0 l).1 = some x ∧ P x (bestOfQ g0 l).2) := by
    intro l o1 s1 ht
    induction ht with
    | start => exact ⟨ho, hg0, .inl ⟨rfl, rfl⟩⟩
    | @step l o1 s1 o2 s2 ev t a1 a2 a3 a4 _ _ _ _ ih =>
      refine ⟨by have := hI _ ev.x ev.gamma ev.retry ih.1; rwa [a4] at this, ?_⟩
      rw [bestOfQ_snoc]
      rcases hg : ev.ans.gamma1 with _ | g
      · exact ih.2
      · have := hP _ _ _ _ _ _ _ ih.1 (a2 ▸ ih.2.1) a4 hg
        exact ⟨this.1, .inr ⟨_, rfl, this.2⟩⟩
  obtain ⟨hi, hj, hb⟩ := key ht
  rcases hend with ⟨-, he, -, -⟩ | ⟨-, ev, -, h2, -, h3, -, -, he⟩
  · rw [← he] at hb; exact hb
  · rw [bestOfQ_snoc] at he
    rcases hg : ev.ans.gamma1 with _ | g1
    · rw [hg] at he; simp only at he; rw [← he] at hb; exact hb
    · rw [hg] at he
      simp only [Prod.mk.injEq] at he
      obtain ⟨rfl, rfl⟩ := he
      exact .inr ⟨_, rfl, (hP _ _ _ _ _ _ _ hi (h2 ▸ hj) h3 hg).2⟩

/-- **C28.** In every run: the first consultation has `retry = False`; a consultation that follows a `Success` has `retry = False`; one that follows
`NoEffect` has `retry = True` and the oracle had announced alternatives; a consultation with `retry = True` follows a `NoEffect`, possibly with
unclassified statuses in between; `NoSoln` is never followed by another consultation. -/
theorem C28_retry_protocol {o : O} {s : S} {g0 : G} {l : List (QEvent X C G)} {o1 : O} {s1 : S}
    (h : QTrace omega sp lt tol o s g0 l o1 s1) :
    (∀ e, l.head? = some e → e.retry = false) ∧
    (∀ l1 e e' l2, l = l1 ++ e :: e' :: l2 →
      (e.status = .success → e'.retry = false) ∧
      (e.status = .noEffect → e'.retry = true ∧ e.ans.moreAlt = true) ∧
      (e.status = .unknown → e'.retry = e.retry) ∧ e.status ≠ .noSoln) ∧
    (∀ l1 e l2, l = l1 ++ e :: l2 → e.retry = true →
      ∃ l3 e0 l4, l1 = l3 ++ e0 :: l4 ∧ e0.status = .noEffect ∧ e0.ans.moreAlt = true ∧
        ∀ e' ∈ l4, e'.status = .unknown) := by
  have hlast : ∀ {l : List (QEvent X C G)} {o1 s1}, QTrace omega sp lt tol o s g0 l o1 s1 → retryAfter l = true →
      ∃ l3 e0 l4, l = l3 ++ e0 :: l4 ∧ e0.status = .noEffect ∧ e0.ans.moreAlt = true ∧
        ∀ e' ∈ l4, e'.status = .unknown := by
    intro l o1 s1 h
    induction h with
    | start => intro hr; simp [retryAfter] at hr
    | @step l o1 s1 o2 s2 e t h1 h2 h3 h4 h5 h6 h7 h8 ih =>
      intro hr
      rw [retryAfter_snoc] at hr
      rcases hs : e.status
      · rw [hs] at hr; simp at hr
      · exact absurd hs h6
      · exact ⟨l, e, [], by simp, hs, h7 hs, by simp⟩
      · rw [hs] at hr
        simp only [h3] at hr
        obtain ⟨l3, e0, l4, rfl, a, b, c⟩ := ih hr
        refine ⟨l3, e0, l4 ++ [e], by simp, a, b, ?_⟩
        intro e' he'
        rw [List.mem_append, List.mem_singleton] at he'
        rcases he' with he' | rfl
        · exact c _ he'
        · exact hs
  induction h with
  | start => simp
  | @step l o1 s1 o2 s2 e t h1 h2 h3 h4 h5 h6 h7 h8 ih =>
    obtain ⟨i1, i2, i3⟩ := ih
    refine ⟨?_, ?_, ?_⟩
    · intro e0 he0
      rcases l with _ | ⟨a, l⟩
      · simp only [List.nil_append, List.head?_cons, Option.some.injEq] at he0
        subst he0; rw [h3]; rfl
      · exact i1 e0 (by simpa using he0)
    · intro l1 a b l2 hl
      rcases List.eq_nil_or_concat l2 with rfl | ⟨l2', c, rfl⟩
      · have hl' : l ++ [e] = (l1 ++ [a]) ++ [b] := by simpa using hl
        obtain ⟨hl1, hb⟩ := List.append_inj' hl' rfl
        simp only [List.cons.injEq, and_true] at hb
        subst hb
        have ht' := t
        rw [hl1] at ht' h3
        rw [retryAfter_snoc] at h3
        have hprev : a.status ≠ .noSoln ∧ (a.status = .noEffect → a.ans.moreAlt = true) := by
          generalize hL : l1 ++ [a] = L at ht'
          cases ht' with
          | start => simp at hL
          | step _ _ _ _ _ _ q1 q2 _ =>
            obtain ⟨-, hq⟩ := List.append_inj' hL rfl
            simp only [List.cons.injEq, and_true] at hq
            subst hq; exact ⟨q1, q2⟩
        refine ⟨fun hs => ?_, fun hs => ⟨?_, hprev.2 hs⟩, fun hs => ?_, hprev.1⟩
        · rw [h3, hs]
        · rw [h3, hs]
        · rw [h3, hs]
      · have hl' : l ++ [e] = (l1 ++ a :: b :: l2') ++ [c] := by simpa using hl
        exact i2 l1 a b l2' (List.append_inj' hl' rfl).1
    · intro l1 a l2 hl ha
      rcases List.eq_nil_or_concat l2 with rfl | ⟨l2', c, rfl⟩
      · obtain ⟨hl1, hb⟩ := List.append_inj' hl rfl
        simp only [List.cons.injEq, and_true] at hb
        subst hb hl1
        exact hlast t (by rw [← h3]; exact ha)
      · have hl' : l ++ [e] = (l1 ++ a :: l2') ++ [c] := by simpa using hl
        exact i3 l1 a l2' (List.append_inj' hl' rfl).1 ha

/-- A discrete oracle for the examples: reports improvements at multiples of three. -/
def toyOptimQ : OracleOptimQ ℕ ℤ Unit ℤ := fun o x _ retry =>
  (o + 1, .ok ⟨(), 100 * x, if x % 3 = 0 then some (10 - x) else none, !retry || x % 4 = 0⟩)

/-- C28/C29 apply: the run sees `NoEffect` with alternatives (`retry` becomes true) and ends at the limit. -/
example : optimQ toyOptimQ toySpace (· < ·) 0 9 (-100) ⟨5, 5⟩ = (5, 4, .ok (some 600, 4, 5)) := by rfl

end OptimQ

end Ellalgo
