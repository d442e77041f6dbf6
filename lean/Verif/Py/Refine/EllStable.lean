import Verif.Py.Refine.StableLoops
import Verif.Py.Refine.Runs

/-!
# The text of `ell_stable.py` computes what `Model/RoundedStable` says

As for `ell.py`, with one difference: `_update_core` reads the gradient once more after it has moved the centre (`v = g.copy()`), so it does what the model says only if the gradient is not the array of the centre.
What it does otherwise is `stableCoreLate` with `late := id`.
-/

set_option linter.unusedSimpArgs false

namespace Ellalgo.Py

variable {W : Type} {n : ℕ}

/-- The attributes of an `EllStable` whose helper, matrix and centre are at `lc`, `lm`, `lx`. -/
structure IsStable (A : Arith) (attrs : Env) (e : EllStable n) (lc lm lx : ℕ) : Prop where
  helper : attrs "helper" = some (.ref lc)
  mq : attrs "_mq" = some (.ref lm)
  xc : attrs "_xc" = some (.ref lx)
  kappa : ∃ v, attrs "_kappa" = some v ∧ v.toFloat A = some e.kappa
  tsq : attrs "_tsq" = some (.num e.tsq)
  ndim : attrs "_ndim" = some (.int n)
  noDefer : attrs "no_defer_trick" = some (.bool e.noDeferTrick) ∨ attrs "no_defer_trick" = none ∧ e.noDeferTrick = false
  only : ∀ a ∉ ["helper", "_mq", "_xc", "_kappa", "_tsq", "_ndim", "no_defer_trick"], attrs a = none

/-- A location with an `EllStable`. -/
structure StableAt (A : Arith) (st : St W) (l lm lx : ℕ) (e : EllStable n) : Prop where
  obj : ∃ attrs lc, st.heap l = some (.inst "EllStable" attrs) ∧ IsStable A attrs e lc lm lx ∧ CalcAt A st lc e.helper
  mq : st.heap lm = some (.square n e.mq)
  xc : st.heap lx = some (.vec n e.xc)
  ltl : l < st.next
  ltm : lm < st.next
  ltx : lx < st.next
  pos : 0 < n

theorem isStable_defer {A : Arith} {ext : ℕ → String → List Val → M W Val} {attrs : Env} {e : EllStable n} {lc lm lx : ℕ} (h : IsStable A attrs e lc lm lx)
    (cl : Val → List Val → M W Val) (l : ℕ) (st : St W) :
    member (mach A ext) cl l "EllStable" "no_defer_trick" (attrs "no_defer_trick") st = .ok (.bool e.noDeferTrick) st := by
  rcases h.noDefer with h | ⟨h, h'⟩
  · rw [h]; rfl
  · rw [h, h']; rfl

theorem StableAt.ne {A : Arith} {st : St W} {l lm lx : ℕ} {e : EllStable n} (h : StableAt A st l lm lx e) : l ≠ lm ∧ l ≠ lx ∧ lm ≠ lx := by
  obtain ⟨⟨attrs, lc, hl, -, -⟩, hm, hx, -⟩ := h
  refine ⟨?_, ?_, ?_⟩ <;> rintro rfl
  · rw [hl] at hm; simp [Obj.square] at hm
  · rw [hl] at hx; simp at hx
  · rw [hm] at hx; simp [Obj.square] at hx

/-- Work on the arrays and the object of an `EllStable` leaves its helper alone. -/
theorem StableAt.calc {A : Arith} {st st' : St W} {l lm lx : ℕ} {e : EllStable n} (h : StableAt A st l lm lx e) {lc : ℕ} {c : EllCalc} (hc : CalcAt A st lc c)
    (hf : Frame (fun k => k = l ∨ k = lm ∨ k = lx) st st') : CalcAt A st' lc c := by
  obtain ⟨⟨attrs, lc, hl, -, -⟩, hm, hx, -⟩ := h
  refine hc.mono hf.next fun k hk c a h1 h2 => hf.same k hk ?_
  rintro (rfl | rfl | rfl)
  · rw [hl] at h2; simp at h2; rcases h1 with rfl | rfl <;> simp at h2
  · rw [hm] at h2; simp [Obj.square] at h2
  · rw [hx] at h2; simp at h2

/-- After work on the arrays and the object. -/
theorem StableAt.change {A : Arith} {st st' : St W} {l lm lx : ℕ} {e e' : EllStable n} (h : StableAt A st l lm lx e) (hf : Frame (fun k => k = l ∨ k = lm ∨ k = lx) st st')
    {attrs : Env} {lc : ℕ} (hc : CalcAt A st lc e.helper) (hl : st'.heap l = some (.inst "EllStable" attrs)) (ha : IsStable A attrs e' lc lm lx) (hh : e'.helper = e.helper)
    (hm : st'.heap lm = some (.square n e'.mq)) (hx : st'.heap lx = some (.vec n e'.xc)) : StableAt A st' l lm lx e' :=
  ⟨⟨attrs, lc, hl, ha, by rw [hh]; exact h.calc hc hf⟩, hm, hx, h.ltl.trans_le hf.next, h.ltm.trans_le hf.next, h.ltx.trans_le hf.next, h.pos⟩

theorem IsStable.congr {A : Arith} {attrs : Env} {e e' : EllStable n} {lc lm lx : ℕ} (h : IsStable A attrs e lc lm lx) (hk : e'.kappa = e.kappa) (ht : e'.tsq = e.tsq) (hd : e'.noDeferTrick = e.noDeferTrick) :
    IsStable A attrs e' lc lm lx :=
  ⟨h.helper, h.mq, h.xc, by rw [hk]; exact h.kappa, by rw [ht]; exact h.tsq, h.ndim, by rw [hd]; exact h.noDefer, h.only⟩

/-- Assignment to `_mq`, `_xc`, `_tsq` or `_kappa`. -/
theorem IsStable.set {A : Arith} {attrs : Env} {e e' : EllStable n} {lc lm lx lx' : ℕ} (h : IsStable A attrs e lc lm lx) {a : String} {v : Val}
    (hv : (a = "_mq" ∧ v = .ref lm ∧ lx' = lx ∧ e'.kappa = e.kappa ∧ e'.tsq = e.tsq) ∨ (a = "_xc" ∧ v = .ref lx' ∧ e'.kappa = e.kappa ∧ e'.tsq = e.tsq)
      ∨ (a = "_tsq" ∧ v = .num e'.tsq ∧ lx' = lx ∧ e'.kappa = e.kappa) ∨ (a = "_kappa" ∧ v.toFloat A = some e'.kappa ∧ lx' = lx ∧ e'.tsq = e.tsq)) (hd : e'.noDeferTrick = e.noDeferTrick) :
    IsStable A (attrs.set a v) e' lc lm lx' := by
  have ha : a ∈ ["_mq", "_xc", "_tsq", "_kappa"] := by rcases hv with h | h | h | h <;> simp [h.1]
  have hnot : ∀ b, b ∉ ["_mq", "_xc", "_tsq", "_kappa"] → (attrs.set a v) b = attrs b := fun b hb => by
    have : b ≠ a := by rintro rfl; exact hb ha
    simp only [Env.set, this, if_false]
  refine ⟨by rw [hnot _ (by decide)]; exact h.helper, ?_, ?_, ?_, ?_, by rw [hnot _ (by decide)]; exact h.ndim, by rw [hnot _ (by decide), hd]; exact h.noDefer, fun b hb => ?_⟩
  · rcases hv with ⟨rfl, rfl, rfl, h1, h2⟩ | ⟨rfl, rfl, h1, h2⟩ | ⟨rfl, rfl, rfl, h1⟩ | ⟨rfl, h1, rfl, h2⟩ <;> simp [Env.set, h.mq]
  · rcases hv with ⟨rfl, rfl, rfl, h1, h2⟩ | ⟨rfl, rfl, h1, h2⟩ | ⟨rfl, rfl, rfl, h1⟩ | ⟨rfl, h1, rfl, h2⟩ <;> simp [Env.set, h.xc]
  · rcases hv with ⟨rfl, rfl, rfl, h1, h2⟩ | ⟨rfl, rfl, h1, h2⟩ | ⟨rfl, rfl, rfl, h1⟩ | ⟨rfl, h1, rfl, h2⟩
    · simpa [Env.set, h1] using h.kappa
    · simpa [Env.set, h1] using h.kappa
    · simpa [Env.set, h1] using h.kappa
    · exact ⟨v, by simp [Env.set], h1⟩
  · rcases hv with ⟨rfl, rfl, rfl, h1, h2⟩ | ⟨rfl, rfl, h1, h2⟩ | ⟨rfl, rfl, rfl, h1⟩ | ⟨rfl, h1, rfl, h2⟩ <;> simp [Env.set, h.tsq, *]
  · have hb' : b ∉ ["_mq", "_xc", "_tsq", "_kappa"] := fun hh => hb (by revert hh; simp only [List.mem_cons, List.not_mem_nil, or_false]; rintro (rfl | rfl | rfl | rfl) <;> simp)
    rw [hnot b hb']
    exact h.only b hb

/-- Changes of new locations do not count. -/
theorem Frame.fresh {S : ℕ → Prop} {st st' st'' : St W} (h : Frame S st st') (h' : Frame (fun k => S k ∨ st.next ≤ k) st' st'') : Frame S st st'' :=
  ⟨h.next.trans h'.next, h'.world.trans h.world, fun k hk hS => (h'.same k (hk.trans_le h.next) fun hh => hh.elim hS fun hh => absurd hk hh.not_gt).trans (h.same k hk hS)⟩

theorem vec_line (x : Fin n → ℝ) : Obj.vec n x = .line n (toArr1 x) := by
  simp only [Obj.line, toArr1, Fin.is_lt, dite_true]

/-! ### The second half of `_update_core` -/

/-- The statements of `_update_core` after the test of `result`. -/
def backBody : List PStmt := (afterLoop (afterLoop coreBody)).drop 5

/-- What they compute; `late x` is what the array of the gradient holds once the centre is `x`. -/
noncomputable def stableBack (A : Arith) (s1 : EllStable n) (late : Vec n → Vec n) (z : ℕ → ℝ) (omega : ℝ) (status : CutStatus) (p : Params) : EllStable n × Except Fault CutStatus :=
  let gt := A.bwd n s1.mq z
  if omega = 0 then (s1, .error .zeroDivision)
  else
    let s2 : EllStable n := { s1 with xc := fun i => A.sub (s1.xc i) (A.mul (A.div p.rho omega) (gt i)) }
    if A.sub 1 p.sigma = 0 then (s2, .error .zeroDivision)
    else
      let mu := A.div p.sigma (A.sub 1 p.sigma)
      if mu = 0 then (s2, .ok status)
      else
        let r := A.rankOne n s2.mq z (toArr1 (late s2.xc)) (A.div omega mu)
        let s3 : EllStable n := { s2 with mq := r.mq }
        if r.failed then (s3, .error .zeroDivision)
        else (A.stableFinish s3 p.delta, .ok status)

/-- `ell_stable.py:195-258`, `_update_core`, with the gradient read twice: `cut.1` at first, `late x` once the centre is `x`. -/
noncomputable def _root_.Ellalgo.Arith.stableCoreLate (A : Arith) (late : Vec n → Vec n) (s : EllStable n) (cut : Cut n) (strategy : Strategy) : EllStable n × Except Fault CutStatus :=
  let f := A.fwd n s.mq (toArr1 cut.1)
  let z := A.invDiag n f.1 f.2
  let omega := A.omegaSum n f.2 z
  let s1 : EllStable n := { s with mq := f.1, tsq := A.mul s.kappa omega }
  match strategy cut.2 s1.tsq with
  | .error e => (s1, .error e)
  | .ok (status, none) => (s1, .ok status)
  | .ok (status, some p) => stableBack A s1 late z omega status p

/-- If the gradient stays what it is, that is the model. -/
theorem stableCore_late (A : Arith) (s : EllStable n) (cut : Cut n) (strategy : Strategy) : A.stableCoreLate (fun _ => cut.1) s cut strategy = A.stableCore s cut strategy := rfl

/-- What the array at `lg` holds once the array at `lx` holds the new centre. -/
def Late (lx lg : ℕ) (g : Vec n) (late : Vec n → Vec n) : Prop := lg ≠ lx ∧ late = (fun _ => g) ∨ lg = lx ∧ late = id

/-- The local variables that the second half reads. -/
structure BackEnv (env : Env) (l lg lz : ℕ) (omega : ℝ) (status : CutStatus) (p : Params) : Prop where
  self : env "self" = some (.ref l)
  g : env "g" = some (.ref lg)
  z : env "inv_diag_inv_lower_g" = some (.ref lz)
  omega : env "omega" = some (.num omega)
  status : env "status" = some (statusVal status)
  result : env "result" = some (paramsVal p)
  range : env "range" = none

section core

variable {A : Arith} (hA : Literals A) {ext : ℕ → String → List Val → M W Val}
include hA

/-- `sum(x * y)`. -/
theorem sum_products (st : St W) (w z : ℕ → ℝ) (hn : 0 < n) :
    sumFrom A (.int 0) (List.ofFn fun i : Fin n => Val.num (A.mul (w i) (z i))) st = .ok (.num (A.omegaSum n w z)) st := by
  have key : ∀ (m : ℕ) (y : ℕ → ℝ) (lo : ℕ) (s : ℝ), sumFrom A (.num s) (List.ofFn fun i : Fin m => Val.num (y (lo + i))) st = .ok (.num (forUp (fun i s => A.add s (y i)) m lo s)) st := by
    intro m
    induction m with
    | zero => intro y lo s; simp only [List.ofFn_zero]; rfl
    | succ m ih =>
      intro y lo s
      have := ih y (lo + 1) (A.add s (y lo))
      simp only [List.ofFn_succ, sumFrom, bind_apply, py, Fin.val_zero, Nat.add_zero, Fin.val_succ, forUp]
      rw [← this]
      simp only [Nat.add_comm 1, Nat.add_assoc, py]
  obtain ⟨m, rfl⟩ : ∃ m, n = m + 1 := ⟨n - 1, by omega⟩
  have := key m (fun i => A.mul (w i) (z i)) 1 (A.add 0 (A.mul (w 0) (z 0)))
  simp only [Arith.omegaSum, forRange, Nat.sub_zero, forUp, List.ofFn_succ, sumFrom, bind_apply, Fin.val_zero, Fin.val_succ]
  rw [binOp_left (A := A) (x := 0) (by simp [Val.toFloat, hA.zero])]
  simp only [py]
  rw [← this]
  simp only [Nat.add_comm 1]

variable {st : St W} {l lm lx : ℕ} {e : EllStable n} (he : StableAt A st l lm lx e) (fuel : ℕ)
include he

theorem stable_back {cut : Cut n} {late : Vec n → Vec n} {lg lz : ℕ} {z : ℕ → ℝ} {omega : ℝ} {status : CutStatus} {p : Params} {env : Env} (henv : BackEnv env l lg lz omega status p)
    (hg : st.heap lg = some (.vec n cut.1)) (hltg : lg < st.next) (hgx : Late lx lg cut.1 late) (hz : st.heap lz = some (.line n z)) (hltz : lz < st.next) (hzx : lz ≠ lx) :
    ∃ st', (execs (mach A ext) (call (mach A ext) (fuel + 1)) backBody env st).bind result = outcome statusVal (stableBack A e late z omega status p).2 st'
      ∧ StableAt A st' l lm lx (stableBack A e late z omega status p).1
      ∧ Frame (fun k => k = l ∨ k = lm ∨ k = lx) st st' := by
  obtain ⟨hlm, hlx, hmx⟩ := he.ne
  have he' := he
  obtain ⟨⟨attrs, lc, hl, ha, hc⟩, hmq, hxc, hlt, hltm, hltx, hn⟩ := he'
  obtain ⟨vk, hk, hk'⟩ := ha.kappa
  have han := ha.ndim
  have ham := ha.mq
  have hax := ha.xc
  have hzl : lz ≠ l := by rintro rfl; rw [hl] at hz; simp [Obj.line] at hz
  have hzm : lz ≠ lm := by rintro rfl; rw [hmq] at hz; simp [Obj.line, Obj.square] at hz
  have hgl : lg ≠ l := by rintro rfl; rw [hl] at hg; simp at hg
  have hgm : lg ≠ lm := by rintro rfl; rw [hmq] at hg; simp [Obj.square] at hg
  set t1 := st.alloc (.line n z) with ht1
  set env1 := ((((env.set "rho" (.num p.rho)).set "sigma" (.num p.sigma)).set "delta" (.num p.delta)).set "g_t" (.ref st.next)) with henv1
  obtain ⟨env2, t2, h2, hb2⟩ := bwd_loop (A := A) (ext := ext) (fuel := fuel) (n := n) (l := l) (lm := lm) (lz := st.next) (attrs := attrs) (env0 := env1) (st0 := t1) (mq := e.mq) (z := z)
    (by simp only [henv1, py, henv.self]) (by simp only [henv1, py]) (by simp only [henv1, py, henv.range]) (by rw [ht1, heap_alloc_ne hlt.ne, hl]) (by rw [ht1, next_alloc]; omega) (by rw [ht1, next_alloc]; omega) ham han hlt.ne hltm.ne
    (by rw [ht1, heap_alloc_ne hltm.ne, hmq]) (heap_alloc_self _)
  set gt := A.bwd n e.mq z with hgt
  have hf2 : Frame (fun _ => False) st t2 := ((Frame.refl _ st).alloc _).fresh (hb2.frame.mono fun k hk => .inr hk.ge)
  have e1 : ((n : ℤ) - 1) = ((n - 1 : ℕ) : ℤ) := by omega
  have e2 : (((n - 1 : ℕ) : ℤ) - 0).toNat = n - 1 - 0 := by omega
  have hz' : st.heap lz = some (.vec n fun i => z i) := hz
  have hl1 : t1.heap l = some (.inst "EllStable" attrs) := by rw [ht1, heap_alloc_ne hlt.ne, hl]
  have ht1' : st.alloc (.vec n fun i => z i) = t1 := rfl
  have hl2 : t2.heap l = some (.inst "EllStable" attrs) := (hf2.same l hlt not_false).trans hl
  have hm2 : t2.heap lm = some (.square n e.mq) := (hf2.same lm hltm not_false).trans hmq
  have hx2 : t2.heap lx = some (.vec n e.xc) := (hf2.same lx hltx not_false).trans hxc
  have hgt2 : t2.heap st.next = some (.vec n fun i => gt i) := hb2.z
  have hg2 : t2.heap lg = some (.vec n cut.1) := (hf2.same lg hltg not_false).trans hg
  have hz2 : t2.heap lz = some (.line n z) := (hf2.same lz hltz not_false).trans hz
  have es : env2 "self" = some (.ref l) := by rw [hb2.keeps _ (by decide)]; simp only [henv1, py, henv.self]
  have eg : env2 "g" = some (.ref lg) := by rw [hb2.keeps _ (by decide)]; simp only [henv1, py, henv.g]
  have ez : env2 "inv_diag_inv_lower_g" = some (.ref lz) := by rw [hb2.keeps _ (by decide)]; simp only [henv1, py, henv.z]
  have eo : env2 "omega" = some (.num omega) := by rw [hb2.keeps _ (by decide)]; simp only [henv1, py, henv.omega]
  have est : env2 "status" = some (statusVal status) := by rw [hb2.keeps _ (by decide)]; simp only [henv1, py, henv.status]
  have er : env2 "range" = none := by rw [hb2.keeps _ (by decide)]; simp only [henv1, py, henv.range]
  have erho : env2 "rho" = some (.num p.rho) := by rw [hb2.keeps _ (by decide)]; simp only [henv1, py]
  have esig : env2 "sigma" = some (.num p.sigma) := by rw [hb2.keeps _ (by decide)]; simp only [henv1, py]
  have edel : env2 "delta" = some (.num p.delta) := by rw [hb2.keeps _ (by decide)]; simp only [henv1, py]
  have egt : env2 "g_t" = some (.ref st.next) := by rw [hb2.keeps _ (by decide)]; simp only [henv1, py]
  have hself := henv.self
  have hres := henv.result
  have hez := henv.z
  have her := henv.range
  have hf2' : Frame (fun k => k = l ∨ k = lm ∨ k = lx) st t2 := hf2.mono fun _ h => h.elim
  rw [henv1] at h2
  clear_value t1 env1
  by_cases h0 : omega = 0
  · refine ⟨t2, ?_, ?_, ?_⟩
    · simp only [loopBody, afterLoop, coreBody, backBody, List.drop, Source.EllStable.EllStable._update_core] at h2 ⊢
      simp only [py, hres, paramsVal, hez, hz', ht1', hself, her, hl1, han, e1, e2, h2, es, hl2, hax, erho, eo, h0, stableBack, excOf]
    · simp only [stableBack, h0, if_true]
      exact he.change hf2' hc hl2 ha rfl hm2 hx2
    · exact hf2'
  -- the centre moves
  set x' : Vec n := fun i => A.sub (e.xc i) (A.mul (A.div p.rho omega) (gt i)) with hx'
  set t3 := t2.alloc (.vec n fun i => A.mul (A.div p.rho omega) (gt i)) with ht3
  set t4 := t3.put lx (.vec n x') with ht4
  set t5 := t4.put l (.inst "EllStable" (attrs.set "_xc" (.ref lx))) with ht5
  have hlt2 : l < t2.next := hlt.trans_le hf2.next
  have hltm2 : lm < t2.next := hltm.trans_le hf2.next
  have hltx2 : lx < t2.next := hltx.trans_le hf2.next
  have hltg2 : lg < t2.next := hltg.trans_le hf2.next
  have hltz2 : lz < t2.next := hltz.trans_le hf2.next
  have hx3 : t3.heap lx = some (.vec n e.xc) := by rw [ht3, heap_alloc_ne hltx2.ne, hx2]
  have hq3 : t3.heap t2.next = some (.vec n fun i => A.mul (A.div p.rho omega) (gt i)) := heap_alloc_self _
  have hl4 : t4.heap l = some (.inst "EllStable" attrs) := by rw [ht4, heap_put_ne hlx, ht3, heap_alloc_ne hlt2.ne, hl2]
  have hl5 : t5.heap l = some (.inst "EllStable" (attrs.set "_xc" (.ref lx))) := heap_put_self _ _
  have hx5 : t5.heap lx = some (.vec n x') := by rw [ht5, heap_put_ne hlx.symm]; exact heap_put_self _ _
  have hm5 : t5.heap lm = some (.square n e.mq) := by rw [ht5, heap_put_ne hlm.symm, ht4, heap_put_ne hmx, ht3, heap_alloc_ne hltm2.ne, hm2]
  have hg5 : t5.heap lg = some (.vec n (late x')) := by
    rcases hgx with ⟨hgx, rfl⟩ | ⟨rfl, rfl⟩
    · rw [ht5, heap_put_ne hgl, ht4, heap_put_ne hgx, ht3, heap_alloc_ne hltg2.ne, hg2]
    · exact hx5
  have hz5 : t5.heap lz = some (.line n z) := by rw [ht5, heap_put_ne hzl, ht4, heap_put_ne hzx, ht3, heap_alloc_ne hltz2.ne, hz2]
  have hf5 : Frame (fun k => k = l ∨ k = lm ∨ k = lx) st t5 := ((hf2'.alloc _).put _ (.inl (.inr (.inr rfl)))).put _ (.inl (.inl rfl))
  have ha5 : IsStable A (attrs.set "_xc" (.ref lx)) { e with xc := x' } lc lm lx := ha.set (.inr (.inl ⟨rfl, rfl, rfl, rfl⟩)) rfl
  have he5 : StableAt A t5 l lm lx { e with xc := x' } := he.change hf5 hc hl5 ha5 rfl hm5 hx5
  have hn5 : t5.next = t2.next + 1 := rfl
  clear_value t3 t4 t5
  by_cases h1 : A.sub 1 p.sigma = 0
  · refine ⟨t5, ?_, ?_, hf5⟩
    · simp only [loopBody, afterLoop, coreBody, backBody, List.drop, Source.EllStable.EllStable._update_core] at h2 ⊢
      simp only [py, hres, paramsVal, hez, hz', ht1', hself, her, hl1, han, e1, e2, h2, es, hl2, hax, erho, eo, h0, egt, hgt2, ← ht3, hx3, hq3, ← hx', ← ht4, hl4, ← ht5, esig, hA.lit1, h1, stableBack, excOf]
    · simp only [stableBack, h0, if_false, h1, if_true]
      exact he5
  set mu := A.div p.sigma (A.sub 1 p.sigma) with hmu
  by_cases h3 : mu = 0
  · refine ⟨t5, ?_, ?_, hf5⟩
    · simp only [loopBody, afterLoop, coreBody, backBody, List.drop, Source.EllStable.EllStable._update_core] at h2 ⊢
      simp only [py, hres, paramsVal, hez, hz', ht1', hself, her, hl1, han, e1, e2, h2, es, hl2, hax, erho, eo, h0, egt, hgt2, ← ht3, hx3, hq3, ← hx', ← ht4, hl4, ← ht5, esig, hA.lit1, hA.lit0, h1, ← hmu, h3, est, stableBack]
    · simp only [stableBack, h0, if_false, h1, ← hmu, h3, if_true]
      exact he5
  -- the rank-one update
  set t6 := t5.alloc (.line n (toArr1 (late x'))) with ht6
  set env3 := ((env2.set "mu" (.num mu)).set "oldt" (.num (A.div omega mu))).set "v" (.ref t5.next) with henv3
  set s0 : EllStable.RankState ℝ := { mq := e.mq, v := toArr1 (late x'), oldt := A.div omega mu, failed := false } with hs0
  have hl6 : t6.heap l = some (.inst "EllStable" (attrs.set "_xc" (.ref lx))) := by rw [ht6, heap_alloc_ne (by omega), hl5]
  have hm6 : t6.heap lm = some (.square n e.mq) := by rw [ht6, heap_alloc_ne (by omega), hm5]
  have hx6 : t6.heap lx = some (.vec n x') := by rw [ht6, heap_alloc_ne (by omega), hx5]
  have hz6 : t6.heap lz = some (.line n z) := by rw [ht6, heap_alloc_ne (by omega), hz5]
  have hn6 : t6.next = t5.next + 1 := rfl
  have hrank := rank_loop (A := A) (ext := ext) (fuel := fuel) (n := n) (l := l) (lm := lm) (lv := t5.next) (lz := lz) (attrs := attrs.set "_xc" (.ref lx)) (env0 := env3) (st0 := t6)
    (by simp only [henv3, py, es]) (by simp only [henv3, py]) (by simp only [henv3, py, ez]) (by simp only [henv3, py, er]) hl6 (by omega) (by omega) ha5.mq ha5.ndim hlm (by omega) (by omega) hzm (by omega) hz6 n
    (j := 0) (by omega) (s := s0) (env := env3) (st := t6) rfl ⟨.refl _ _, by simp only [henv3, py, hs0], hm6, heap_alloc_self _, .refl _ _⟩
  have hv6 : t5.alloc (.vec n (late x')) = t6 := by rw [ht6, vec_line]
  have hr : A.rankOne n e.mq z (toArr1 (late fun i => A.sub (e.xc i) (A.mul (A.div p.rho omega) (A.bwd n e.mq z i)))) (A.div omega mu) = forUp (A.rankStep n z) n 0 s0 := rfl
  set r := forUp (A.rankStep n z) n 0 s0 with hr'
  have hf6 : Frame (fun k => k = l ∨ k = lm ∨ k = lx) st t6 := hf5.alloc _
  have hnew : ∀ {t : St W}, Frame (fun k => k = lm ∨ k = t5.next) t6 t → Frame (fun k => k = l ∨ k = lm ∨ k = lx) st t := fun hf =>
    hf6.fresh (hf.mono fun k hk => by rcases hk with hk | hk; exacts [.inl (.inr (.inl hk)), .inr (by rw [hk]; exact hf5.next)])
  by_cases hfail : r.failed = true
  · rw [if_pos hfail] at hrank
    obtain ⟨t7, h7, hm7, hf7⟩ := hrank
    have hl7 := (hf7.same l (by omega) (by simp only [not_or]; omega)).trans hl6
    have hx7 := (hf7.same lx (by omega) (by simp only [not_or]; omega)).trans hx6
    refine ⟨t7, ?_, ?_, hnew hf7⟩
    · rw [henv3] at h7
      clear_value env3 t6
      simp only [loopBody, afterLoop, coreBody, backBody, List.drop, Source.EllStable.EllStable._update_core, Nat.cast_zero] at h2 h7 ⊢
      simp only [py, hres, paramsVal, hez, hz', ht1', hself, her, hl1, han, e1, e2, h2, es, hl2, hax, erho, eo, h0, egt, hgt2, ← ht3, hx3, hq3, ← hx', ← ht4, hl4, ← ht5, esig, hA.lit1, hA.lit0, h1, ← hmu, h3, eg, hg5, hv6, er, hl6, ha5.ndim, Int.toNat_natCast, h7, stableBack, hr, hfail, excOf]
    · simp only [stableBack, h0, if_false, h1, ← hmu, h3, hr, hfail, if_true]
      exact he.change (hnew hf7) hc hl7 (ha5.congr rfl rfl rfl) rfl hm7 hx7
  · rw [if_neg hfail] at hrank
    obtain ⟨env4, t7, h7, hR7⟩ := hrank
    have hf7 := hR7.frame
    have hm7 := hR7.mq
    have hl7 := (hf7.same l (by omega) (by simp only [not_or]; omega)).trans hl6
    have hx7 := (hf7.same lx (by omega) (by simp only [not_or]; omega)).trans hx6
    have es4 : env4 "self" = some (.ref l) := by rw [hR7.keeps _ (by decide)]; simp only [henv3, py, es]
    have est4 : env4 "status" = some (statusVal status) := by rw [hR7.keeps _ (by decide)]; simp only [henv3, py, est]
    have edel4 : env4 "delta" = some (.num p.delta) := by rw [hR7.keeps _ (by decide)]; simp only [henv3, py, edel]
    have hk5 : (attrs.set "_xc" (.ref lx)) "_kappa" = some vk := by simp only [py, hk]
    set attrs8 := (attrs.set "_xc" (.ref lx)).set "_kappa" (.num (A.mul e.kappa p.delta)) with hattrs8
    set t8 := t7.put l (.inst "EllStable" attrs8) with ht8
    have hl8 : t8.heap l = some (.inst "EllStable" attrs8) := heap_put_self _ _
    have hm8 : t8.heap lm = some (.square n r.mq) := by rw [ht8, heap_put_ne hlm.symm, hm7]
    have hx8 : t8.heap lx = some (.vec n x') := by rw [ht8, heap_put_ne hlx.symm, hx7]
    have hf8 : Frame (fun k => k = l ∨ k = lm ∨ k = lx) st t8 := (hnew hf7).put _ (.inl (.inl rfl))
    have ha8 : IsStable A attrs8 { e with xc := x', mq := r.mq, kappa := A.mul e.kappa p.delta } lc lm lx := ha5.set (.inr (.inr (.inr ⟨rfl, rfl, rfl, rfl⟩))) rfl
    have hk8 : attrs8 "_kappa" = some (.num (A.mul e.kappa p.delta)) := by simp only [hattrs8, py]
    rw [henv3] at h7
    clear_value env3 t6 attrs8 t8
    by_cases hd : e.noDeferTrick = true
    · set t9 := t8.put lm (.square n fun i j => A.mul (r.mq i j) (A.mul e.kappa p.delta)) with ht9
      set t10 := (t9.put l (.inst "EllStable" (attrs8.set "_mq" (.ref lm)))).put l (.inst "EllStable" ((attrs8.set "_mq" (.ref lm)).set "_kappa" (.num 1))) with ht10
      have hl9 : t9.heap l = some (.inst "EllStable" attrs8) := by rw [ht9, heap_put_ne hlm, hl8]
      have hm8' : t8.heap lm = some (.mat n n fun i j => r.mq i j) := hm8
      have ht9' : t8.put lm (.mat n n fun i j => A.mul (r.mq i j) (A.mul e.kappa p.delta)) = t9 := rfl
      have hm9 : t9.heap lm = some (.square n fun i j => A.mul (r.mq i j) (A.mul e.kappa p.delta)) := heap_put_self _ _
      have hx9 : t9.heap lx = some (.vec n x') := by rw [ht9, heap_put_ne hmx.symm, hx8]
      have hf10 : Frame (fun k => k = l ∨ k = lm ∨ k = lx) st t10 := ((hf8.put _ (.inl (.inr (.inl rfl)))).put _ (.inl (.inl rfl))).put _ (.inl (.inl rfl))
      have hm10 : t10.heap lm = some (.square n fun i j => A.mul (r.mq i j) (A.mul e.kappa p.delta)) := by rw [ht10, heap_put_ne hlm.symm, heap_put_ne hlm.symm, hm9]
      have hx10 : t10.heap lx = some (.vec n x') := by rw [ht10, heap_put_ne hlx.symm, heap_put_ne hlx.symm, hx9]
      have hl10 : t10.heap l = some (.inst "EllStable" ((attrs8.set "_mq" (.ref lm)).set "_kappa" (.num 1))) := heap_put_self _ _
      have ha10 : IsStable A ((attrs8.set "_mq" (.ref lm)).set "_kappa" (.num 1)) { e with xc := x', mq := fun i j => A.mul (r.mq i j) (A.mul e.kappa p.delta), kappa := 1 } lc lm lx :=
        (ha8.set (a := "_mq") (v := .ref lm) (.inl ⟨rfl, rfl, rfl, rfl, rfl⟩) rfl).set (.inr (.inr (.inr ⟨rfl, rfl, rfl, rfl⟩))) rfl
      refine ⟨t10, ?_, ?_, hf10⟩
      · have hdef := isStable_defer (ext := ext) ha8
        have ham8 := ha8.mq
        rw [ht10]
        clear_value t9 t10
        simp only [loopBody, afterLoop, coreBody, backBody, List.drop, Source.EllStable.EllStable._update_core, Nat.cast_zero] at h2 h7 ⊢
        simp only [py, hres, paramsVal, hez, hz', ht1', hself, her, hl1, han, e1, e2, h2, es, hl2, hax, erho, eo, h0, egt, hgt2, ← ht3, hx3, hq3, ← hx', ← ht4, hl4, ← ht5, esig, hA.lit1, hA.lit0, h1, ← hmu, h3, eg, hg5, hv6, er, hl6, ha5.ndim, Int.toNat_natCast, h7,
          es4, hl7, hk5, edel4, augOp_left hk', ← hattrs8, ← ht8, hl8, hdef, hd, ham8, hm8', hk8, ht9', hl9, est4, stableBack, hr, hfail]
      · simp only [stableBack, h0, if_false, h1, ← hmu, h3, hr, hfail, Arith.stableFinish, hd, if_true, Bool.false_eq_true]
        exact he.change hf10 hc hl10 (ha10.congr rfl rfl hd.symm) rfl hm10 hx10
    · refine ⟨t8, ?_, ?_, hf8⟩
      · have hdef := isStable_defer (ext := ext) ha8
        simp only [loopBody, afterLoop, coreBody, backBody, List.drop, Source.EllStable.EllStable._update_core, Nat.cast_zero] at h2 h7 ⊢
        simp only [py, hres, paramsVal, hez, hz', ht1', hself, her, hl1, han, e1, e2, h2, es, hl2, hax, erho, eo, h0, egt, hgt2, ← ht3, hx3, hq3, ← hx', ← ht4, hl4, ← ht5, esig, hA.lit1, hA.lit0, h1, ← hmu, h3, eg, hg5, hv6, er, hl6, ha5.ndim, Int.toNat_natCast, h7,
          es4, hl7, hk5, edel4, augOp_left hk', ← hattrs8, ← ht8, hl8, hdef, hd, est4, stableBack, hr, hfail]
      · simp only [stableBack, h0, if_false, h1, ← hmu, h3, hr, hfail, Arith.stableFinish, hd, Bool.false_eq_true]
        exact he.change hf8 hc hl8 (ha8.congr rfl rfl (by simpa using hd)) rfl hm8 hx8

omit hA he in
/-- Up to the end of the first loop. -/
theorem stable_front1 {R : List PStmt} {lg : ℕ} {vb : Val} {x : Vec n} {attrs env0 env2 : Env} {t1 t2 : St W} (hself : env0 "self" = some (.ref l)) (hcut : env0 "cut" = some (.tuple [.ref lg, vb])) (hrange : env0 "range" = none)
    (hg : st.heap lg = some (.vec n x)) (ht1' : st.alloc (.vec n x) = t1) (hl1 : t1.heap l = some (.inst "EllStable" attrs)) (han : attrs "_ndim" = some (.int n))
    (e2 : ((n : ℤ) - 1).toNat = n - 1)
    (h2 : loop (turn (mach A ext) (call (mach A ext) (fuel + 1)) (.name "j") (loopBody coreBody)) (intsFrom 0 (n - 1))
      (((env0.set "g" (.ref lg)).set "beta" vb).set "inv_lower_g" (.ref st.next)) t1 = .ok (.next env2) t2) :
    execs (mach A ext) (call (mach A ext) (fuel + 1)) (coreBody.take 3 ++ R) env0 st
      = execs (mach A ext) (call (mach A ext) (fuel + 1)) R env2 t2 := by
  simp only [loopBody, coreBody, Source.EllStable.EllStable._update_core, List.take, List.cons_append, List.nil_append] at h2 ⊢
  simp only [py, hself, hcut, hrange, hg, ht1', hl1, han, e2, h2]

omit hA he in
/-- From the first loop to the end of the second. -/
theorem stable_front2 {R : List PStmt} {lw : ℕ} {w : Vec n} {attrs env2 env4 : Env} {t2 t3 t4 : St W} (ew : env2 "inv_lower_g" = some (.ref lw)) (hw2 : t2.heap lw = some (.vec n w)) (ht3' : t2.alloc (.vec n w) = t3)
    (es : env2 "self" = some (.ref l)) (er : env2 "range" = none) (hl3 : t3.heap l = some (.inst "EllStable" attrs)) (han : attrs "_ndim" = some (.int n))
    (h4 : loop (turn (mach A ext) (call (mach A ext) (fuel + 1)) (.name "i") (loopBody (afterLoop coreBody))) (intsFrom 0 n) (env2.set "inv_diag_inv_lower_g" (.ref t2.next)) t3 = .ok (.next env4) t4) :
    execs (mach A ext) (call (mach A ext) (fuel + 1)) ((afterLoop coreBody).take 2 ++ R) env2 t2
      = execs (mach A ext) (call (mach A ext) (fuel + 1)) R env4 t4 := by
  simp only [loopBody, afterLoop, coreBody, Source.EllStable.EllStable._update_core, List.take, List.cons_append, List.nil_append] at h4 ⊢
  simp only [py, ew, hw2, ht3', es, er, hl3, han, Int.toNat_natCast, h4]

omit he in
/-- From the second loop to the test of `result`. -/
theorem stable_front3 {R : List PStmt} {lw lz lc : ℕ} {m : String} {w z : ℕ → ℝ} {kappa : ℝ} {vb vk : Val} {attrs env4 : Env} {t4 t5 t6 : St W} {r : Except Fault (CutStatus × Option Params)} (hn : 0 < n)
    (ew : env4 "inv_lower_g" = some (.ref lw)) (ez : env4 "inv_diag_inv_lower_g" = some (.ref lz)) (es : env4 "self" = some (.ref l)) (ecut : env4 "cut_strategy" = some (.meth (.ref lc) m)) (ebeta : env4 "beta" = some vb) (esum : env4 "sum" = none)
    (hw : t4.heap lw = some (.vec n fun i => w i)) (hz : t4.heap lz = some (.vec n fun i => z i)) (ht5 : t4.alloc (.vec n fun i => A.mul (w i) (z i)) = t5) (hgg5 : t5.heap t4.next = some (.vec n fun i => A.mul (w i) (z i)))
    (hl5 : t5.heap l = some (.inst "EllStable" attrs)) (hk : attrs "_kappa" = some vk) (hk' : vk.toFloat A = some kappa)
    (ht6 : t5.put l (.inst "EllStable" (attrs.set "_tsq" (.num (A.mul kappa (A.omegaSum n w z))))) = t6) (hl6 : t6.heap l = some (.inst "EllStable" (attrs.set "_tsq" (.num (A.mul kappa (A.omegaSum n w z))))))
    (hs : call (mach A ext) (fuel + 1) (.meth (.ref lc) m) [vb, .num (A.mul kappa (A.omegaSum n w z))] t6 = outcome strategyVal r t6) :
    (execs (mach A ext) (call (mach A ext) (fuel + 1)) ((afterLoop (afterLoop coreBody)).take 5 ++ R) env4 t4).bind result
      = match (generalizing := false) r with
        | .error f => .exc (excOf f) t6
        | .ok (s, none) => .ok (statusVal s) t6
        | .ok (s, some p) => (execs (mach A ext) (call (mach A ext) (fuel + 1)) R
            ((((env4.set "gg_t" (.ref t4.next)).set "omega" (.num (A.omegaSum n w z))).set "status" (statusVal s)).set "result" (paramsVal p)) t6).bind result := by
  have hsum := sum_products hA t5 w z hn
  rcases r with f | ⟨s, _ | p⟩
  · simp only [loopBody, afterLoop, coreBody, Source.EllStable.EllStable._update_core, List.take, List.cons_append, List.nil_append, outcome, strategyVal, paramsVal] at hs ⊢
    simp only [py, ew, ez, es, ecut, ebeta, esum, hw, hz, ht5, hgg5, hsum, hl5, hk, binOp_left hk', ht6, hl6, hs]
  · simp only [loopBody, afterLoop, coreBody, Source.EllStable.EllStable._update_core, List.take, List.cons_append, List.nil_append, outcome, strategyVal, paramsVal] at hs ⊢
    simp only [py, ew, ez, es, ecut, ebeta, esum, hw, hz, ht5, hgg5, hsum, hl5, hk, binOp_left hk', ht6, hl6, hs]
  · simp only [loopBody, afterLoop, coreBody, Source.EllStable.EllStable._update_core, List.take, List.cons_append, List.nil_append, outcome, strategyVal, paramsVal] at hs ⊢
    simp only [py, ew, ez, es, ecut, ebeta, esum, hw, hz, ht5, hgg5, hsum, hl5, hk, binOp_left hk', ht6, hl6, hs]

/-- `_update_core` for a strategy that does what the model says, wherever the helper and the offset are found. -/
theorem stable_update_core {cut : Cut n} {v : Val} {late : Vec n → Vec n} (hv : IsCut st cut v) (hx : ∀ lg vb, v = .tuple [.ref lg, vb] → Late lx lg cut.1 late) (m : String) (strategy : Strategy)
    (hm : ∀ (st' : St W) (lc : ℕ) (vb : Val) (tsq : ℝ), CalcAt A st' lc e.helper → IsBeta st' cut.2 vb →
      call (mach A ext) (fuel + 1) (.meth (.ref lc) m) [vb, .num tsq] st' = outcome strategyVal (strategy cut.2 tsq) st')
    {lc : ℕ} (hlc : ∀ attrs, st.heap l = some (.inst "EllStable" attrs) → attrs "helper" = some (.ref lc)) :
    ∃ st', call (mach A ext) (fuel + 2) (.meth (.ref l) "_update_core") [v, .meth (.ref lc) m] st
        = outcome statusVal (A.stableCoreLate late e cut strategy).2 st'
      ∧ StableAt A st' l lm lx (A.stableCoreLate late e cut strategy).1
      ∧ Frame (fun k => k = l ∨ k = lm ∨ k = lx) st st' := by
  obtain ⟨hlm, hlx, hmx⟩ := he.ne
  have he' := he
  obtain ⟨⟨attrs, lc', hl, ha, hc⟩, hmq, hxc, hlt, hltm, hltx, hn⟩ := he'
  obtain rfl : lc' = lc := by have := (hlc attrs hl).symm.trans ha.helper; simpa using this.symm
  obtain ⟨lg, vb, rfl, hltg, hg, hb⟩ := hv
  obtain ⟨vk, hk, hk'⟩ := ha.kappa
  have hgx := hx lg vb rfl
  have hgl : lg ≠ l := by rintro rfl; rw [hl] at hg; simp at hg
  have hgm : lg ≠ lm := by rintro rfl; rw [hmq] at hg; simp [Obj.square] at hg
  have han := ha.ndim
  have ham := ha.mq
  -- forward substitution
  set t1 := st.alloc (.line n (toArr1 cut.1)) with ht1
  set env1 : Env := (((((Env.empty.set "self" (.ref l)).set "cut" (.tuple [.ref lg, vb])).set "cut_strategy" (.meth (.ref lc') m)).set "g" (.ref lg)).set "beta" vb).set "inv_lower_g" (.ref st.next) with henv1
  obtain ⟨env2, t2, h2, hb2⟩ := fwd_loop (A := A) (ext := ext) (fuel := fuel) (n := n) (l := l) (lm := lm) (lw := st.next) (attrs := attrs) (env0 := env1) (st0 := t1) (mq := e.mq) (w := toArr1 cut.1)
    (by simp only [henv1, py]) (by simp only [henv1, py]) (by simp only [henv1, py]) (by rw [ht1, heap_alloc_ne hlt.ne, hl]) (by rw [ht1, next_alloc]; omega) ham han hlm hlt.ne hltm.ne
    (by rw [ht1, heap_alloc_ne hltm.ne, hmq]) (heap_alloc_self _)
  set f := A.fwd n e.mq (toArr1 cut.1) with hf
  have hf2 : Frame (fun k => k = lm) st t2 := ((Frame.refl _ st).alloc _).fresh (hb2.frame.mono fun k hk => hk.imp_right fun h => h.ge)
  have hn2 : st.next < t2.next := lt_of_lt_of_le (Nat.lt_succ_self _) hb2.frame.next
  have hl2 : t2.heap l = some (.inst "EllStable" attrs) := (hf2.same l hlt hlm).trans hl
  have hm2 := hb2.mq
  have hw2 : t2.heap st.next = some (.vec n fun i => f.2 i) := hb2.w
  have es : env2 "self" = some (.ref l) := by rw [hb2.keeps _ (by decide)]; simp only [henv1, py]
  have ew : env2 "inv_lower_g" = some (.ref st.next) := by rw [hb2.keeps _ (by decide)]; simp only [henv1, py]
  have er : env2 "range" = none := by rw [hb2.keeps _ (by decide)]; simp only [henv1, py]
  have ecut : env2 "cut_strategy" = some (.meth (.ref lc') m) := by rw [hb2.keeps _ (by decide)]; simp only [henv1, py]
  have eg : env2 "g" = some (.ref lg) := by rw [hb2.keeps _ (by decide)]; simp only [henv1, py]
  have ebeta : env2 "beta" = some vb := by rw [hb2.keeps _ (by decide)]; simp only [henv1, py]
  have esum : env2 "sum" = none := by rw [hb2.keeps _ (by decide)]; simp only [henv1, py]
  -- the inverse diagonal
  set t3 := t2.alloc (.line n f.2) with ht3
  set env3 := env2.set "inv_diag_inv_lower_g" (.ref t2.next) with henv3
  obtain ⟨env4, t4, h4, hb4⟩ := diag_loop (A := A) (ext := ext) (fuel := fuel) (n := n) (l := l) (lm := lm) (lz := t2.next) (attrs := attrs) (env0 := env3) (st0 := t3) (mq := f.1) (z := f.2)
    (by simp only [henv3, py, es]) (by simp only [henv3, py]) (by rw [ht3, heap_alloc_ne (by omega), hl2]) (by rw [ht3, next_alloc]; omega) (by rw [ht3, next_alloc]; omega) ham (by omega) (by omega)
    (by rw [ht3, heap_alloc_ne (by omega), hm2]) (heap_alloc_self _)
  set z := A.invDiag n f.1 f.2 with hz
  have hf4 : Frame (fun _ => False) t2 t4 := ((Frame.refl _ t2).alloc _).fresh (hb4.frame.mono fun k hk => .inr hk.ge)
  have hn4 : t2.next < t4.next := lt_of_lt_of_le (Nat.lt_succ_self _) hb4.frame.next
  have hl4 : t4.heap l = some (.inst "EllStable" attrs) := (hf4.same l (by omega) not_false).trans hl2
  have hm4 : t4.heap lm = some (.square n f.1) := (hf4.same lm (by omega) not_false).trans hm2
  have hw4 : t4.heap st.next = some (.vec n fun i => f.2 i) := (hf4.same st.next (by omega) not_false).trans hw2
  have hz4 : t4.heap t2.next = some (.vec n fun i => z i) := hb4.z
  have hx2 : t2.heap lx = some (.vec n e.xc) := (hf2.same lx hltx hmx.symm).trans hxc
  have hg2 : t2.heap lg = some (.vec n cut.1) := (hf2.same lg hltg hgm).trans hg
  have es4 : env4 "self" = some (.ref l) := by rw [hb4.keeps _ (by decide)]; simp only [henv3, py, es]
  have ew4 : env4 "inv_lower_g" = some (.ref st.next) := by rw [hb4.keeps _ (by decide)]; simp only [henv3, py, ew]
  have er4 : env4 "range" = none := by rw [hb4.keeps _ (by decide)]; simp only [henv3, py, er]
  have ez4 : env4 "inv_diag_inv_lower_g" = some (.ref t2.next) := by rw [hb4.keeps _ (by decide)]; simp only [henv3, py]
  have ecut4 : env4 "cut_strategy" = some (.meth (.ref lc') m) := by rw [hb4.keeps _ (by decide)]; simp only [henv3, py, ecut]
  have eg4 : env4 "g" = some (.ref lg) := by rw [hb4.keeps _ (by decide)]; simp only [henv3, py, eg]
  have ebeta4 : env4 "beta" = some vb := by rw [hb4.keeps _ (by decide)]; simp only [henv3, py, ebeta]
  have esum4 : env4 "sum" = none := by rw [hb4.keeps _ (by decide)]; simp only [henv3, py, esum]
  -- `omega`, `_tsq`
  set omega := A.omegaSum n f.2 z with homega
  set t5 := t4.alloc (.vec n fun i => A.mul (f.2 i) (z i)) with ht5
  set t6 := t5.put l (.inst "EllStable" (attrs.set "_tsq" (.num (A.mul e.kappa omega)))) with ht6
  have hsum := sum_products hA t5 f.2 z hn
  have hl5 : t5.heap l = some (.inst "EllStable" attrs) := by rw [ht5, heap_alloc_ne (by omega), hl4]
  have hl6 : t6.heap l = some (.inst "EllStable" (attrs.set "_tsq" (.num (A.mul e.kappa omega)))) := heap_put_self _ _
  have hgg5 : t5.heap t4.next = some (.vec n fun i => A.mul (f.2 i) (z i)) := heap_alloc_self _
  have hf4' : Frame (fun k => k = l ∨ k = lm ∨ k = lx) st t4 := (hf2.mono fun _ h => .inr (.inl h)).trans (hf4.mono fun _ h => h.elim)
  have hf6 : Frame (fun k => k = l ∨ k = lm ∨ k = lx) st t6 := (hf4'.alloc _).put _ (.inl (.inl rfl))
  have hm6 : t6.heap lm = some (.square n f.1) := by rw [ht6, heap_put_ne hlm.symm, ht5, heap_alloc_ne (by omega), hm4]
  have hx6 : t6.heap lx = some (.vec n e.xc) := by rw [ht6, heap_put_ne hlx.symm, ht5, heap_alloc_ne (by omega), (hf4.same lx (by omega) not_false), hx2]
  have hg6 : t6.heap lg = some (.vec n cut.1) := by rw [ht6, heap_put_ne hgl, ht5, heap_alloc_ne (by omega), (hf4.same lg (by omega) not_false), hg2]
  have hz6 : t6.heap t2.next = some (.line n z) := by rw [ht6, heap_put_ne (by omega), ht5, heap_alloc_ne (by omega)]; exact hz4
  have ha6 : IsStable A (attrs.set "_tsq" (.num (A.mul e.kappa omega))) { e with mq := f.1, tsq := A.mul e.kappa omega } lc' lm lx := ha.set (.inr (.inr (.inl ⟨rfl, rfl, rfl, rfl⟩))) rfl
  have he6 : StableAt A t6 l lm lx { e with mq := f.1, tsq := A.mul e.kappa omega } := he.change hf6 hc hl6 ha6 rfl hm6 hx6
  have hc6 : CalcAt A t6 lc' e.helper := he.calc hc hf6
  have hf6' : Frame (fun k => k = l ∨ k = lm) st t6 := (((hf2.mono fun _ h => .inr h).trans (hf4.mono fun _ h => h.elim)).alloc _).put _ (.inl (.inl rfl))
  have hb6 : IsBeta t6 cut.2 vb := by
    refine hb.mono hf6'.next fun k hk _ _ hv => hf6'.same k hk ?_
    rintro (rfl | rfl)
    · rw [hl] at hv; simp at hv
    · rw [hmq] at hv; simp [Obj.square] at hv
  have hs := hm t6 lc' vb (A.mul e.kappa omega) hc6 hb6
  have ht1' : st.alloc (.vec n cut.1) = t1 := by rw [ht1, vec_line]
  have ht3' : t2.alloc (.vec n fun i => f.2 i) = t3 := rfl
  have hl1 : t1.heap l = some (.inst "EllStable" attrs) := by rw [ht1, heap_alloc_ne hlt.ne, hl]
  have hl3 : t3.heap l = some (.inst "EllStable" attrs) := by rw [ht3, heap_alloc_ne (by omega), hl2]
  have e2 : ((n : ℤ) - 1).toNat = n - 1 := by omega
  rw [henv1] at h2
  rw [henv3] at h4
  have hn6 : t6.next = t4.next + 1 := rfl
  clear_value t1 t3 t5 t6 env1 env3
  have r1 := stable_front1 fuel (R := afterLoop coreBody) (env0 := ((Env.empty.set "self" (.ref l)).set "cut" (.tuple [.ref lg, vb])).set "cut_strategy" (.meth (.ref lc') m))
    (by simp only [py]) (by simp only [py]) (by simp only [py]) hg ht1' hl1 han e2 h2
  have r2 := stable_front2 fuel (R := afterLoop (afterLoop coreBody)) ew hw2 ht3' es er hl3 han h4
  have r3 := stable_front3 hA fuel (R := backBody) hn ew4 ez4 es4 ecut4 ebeta4 esum4 hw4 hz4 ht5.symm hgg5 hl5 hk hk' ht6.symm hl6 hs
  have r0 : call (mach A ext) (fuel + 2) (.meth (.ref l) "_update_core") [.tuple [.ref lg, vb], .meth (.ref lc') m] st
      = (execs (mach A ext) (call (mach A ext) (fuel + 1)) (afterLoop (afterLoop coreBody)) env4 t4).bind result := by
    rw [call_meth hl method_EllStable_update_core rfl, ← r2]
    exact congrArg (fun r => Res.bind r result) r1
  rw [r0]
  have hback : ∀ s p, A.stableCoreLate late e cut strategy = stableBack A { e with mq := f.1, tsq := A.mul e.kappa omega } late z omega s p →
      ((execs (mach A ext) (call (mach A ext) (fuel + 1)) (afterLoop (afterLoop coreBody)) env4 t4).bind result
        = (execs (mach A ext) (call (mach A ext) (fuel + 1)) backBody ((((env4.set "gg_t" (.ref t4.next)).set "omega" (.num omega)).set "status" (statusVal s)).set "result" (paramsVal p)) t6).bind result) →
      ∃ st', (execs (mach A ext) (call (mach A ext) (fuel + 1)) (afterLoop (afterLoop coreBody)) env4 t4).bind result = outcome statusVal (A.stableCoreLate late e cut strategy).2 st'
        ∧ StableAt A st' l lm lx (A.stableCoreLate late e cut strategy).1 ∧ Frame (fun k => k = l ∨ k = lm ∨ k = lx) st st' := by
    intro s p hcore h
    obtain ⟨st', h1, h2, h3⟩ := stable_back hA he6 fuel (ext := ext) (cut := cut) (lg := lg) (lz := t2.next) (z := z) (omega := omega) (status := s) (p := p)
      (env := (((env4.set "gg_t" (.ref t4.next)).set "omega" (.num omega)).set "status" (statusVal s)).set "result" (paramsVal p))
      ⟨by simp only [py, es4], by simp only [py, eg4], by simp only [py, ez4], by simp only [py], by simp only [py], by simp only [py], by simp only [py, er4]⟩
      hg6 (by omega) hgx hz6 (by omega) (by omega)
    rw [h, hcore]
    exact ⟨st', h1, h2, hf6.trans h3⟩
  rcases hr : strategy cut.2 (A.mul e.kappa omega) with flt | ⟨s, _ | p⟩
  · rw [hr] at r3
    have hcore : A.stableCoreLate late e cut strategy = ({ e with mq := f.1, tsq := A.mul e.kappa omega }, .error flt) := by
      simp only [Arith.stableCoreLate, ← hf, ← hz, ← homega, hr]
    rw [hcore]
    exact ⟨t6, r3, he6, hf6⟩
  · rw [hr] at r3
    have hcore : A.stableCoreLate late e cut strategy = ({ e with mq := f.1, tsq := A.mul e.kappa omega }, .ok s) := by
      simp only [Arith.stableCoreLate, ← hf, ← hz, ← homega, hr]
    rw [hcore]
    exact ⟨t6, r3, he6, hf6⟩
  · rw [hr] at r3
    refine hback s p ?_ r3
    simp only [Arith.stableCoreLate, ← hf, ← hz, ← homega, hr, stableBack]

theorem stable_late_bias_cut {cut : Cut n} {v : Val} {late : Vec n → Vec n} (hv : IsCut st cut v) (hx : ∀ lg vb, v = .tuple [.ref lg, vb] → Late lx lg cut.1 late) :
    ∃ st', call (mach A ext) (fuel + 7) (.meth (.ref l) "update_bias_cut") [v] st = outcome statusVal (A.stableCoreLate late e cut (A.calcSingleOrParallel e.helper)).2 st'
      ∧ StableAt A st' l lm lx (A.stableCoreLate late e cut (A.calcSingleOrParallel e.helper)).1 ∧ Frame (fun k => k = l ∨ k = lm ∨ k = lx) st st' := by
  obtain ⟨attrs, lc, hl, ha, hc⟩ := he.obj
  obtain ⟨st', h1, h2, h3⟩ := stable_update_core hA (ext := ext) he (fuel + 4) hv hx "calc_single_or_parallel" (A.calcSingleOrParallel e.helper)
    (fun st' lc vb tsq h h' => calc_calc_single_or_parallel hA h fuel h' tsq) (lc := lc)
    (fun a h => by rw [hl] at h; simp at h; rw [← h]; exact ha.helper)
  refine ⟨st', ?_, h2, h3⟩
  have h4 : attrs "_update_core" = none := ha.only _ (by decide)
  obtain ⟨-, attrs', lh, hl', ha', -⟩ := hc
  have h5 : attrs' "calc_single_or_parallel" = none := ha'.only _ (by decide)
  rw [call_meth hl method_EllStable_update_bias_cut rfl]
  simp only [Source.EllStable.EllStable.update_bias_cut]
  simp only [py, hl, h4, ha.helper, hl', h5, h1]

theorem stable_late_central_cut {cut : Cut n} {v : Val} {late : Vec n → Vec n} (hv : IsCut st cut v) (hx : ∀ lg vb, v = .tuple [.ref lg, vb] → Late lx lg cut.1 late) :
    ∃ st', call (mach A ext) (fuel + 5) (.meth (.ref l) "update_central_cut") [v] st = outcome statusVal (A.stableCoreLate late e cut (A.calcSingleOrParallelCentralCut e.helper)).2 st'
      ∧ StableAt A st' l lm lx (A.stableCoreLate late e cut (A.calcSingleOrParallelCentralCut e.helper)).1 ∧ Frame (fun k => k = l ∨ k = lm ∨ k = lx) st st' := by
  obtain ⟨attrs, lc, hl, ha, hc⟩ := he.obj
  obtain ⟨st', h1, h2, h3⟩ := stable_update_core hA (ext := ext) he (fuel + 2) hv hx "calc_single_or_parallel_central_cut" (A.calcSingleOrParallelCentralCut e.helper)
    (fun st' lc vb tsq h h' => calc_calc_single_or_parallel_central_cut hA h fuel h' tsq) (lc := lc)
    (fun a h => by rw [hl] at h; simp at h; rw [← h]; exact ha.helper)
  refine ⟨st', ?_, h2, h3⟩
  have h4 : attrs "_update_core" = none := ha.only _ (by decide)
  obtain ⟨-, attrs', lh, hl', ha', -⟩ := hc
  have h5 : attrs' "calc_single_or_parallel_central_cut" = none := ha'.only _ (by decide)
  rw [call_meth hl method_EllStable_update_central_cut rfl]
  simp only [Source.EllStable.EllStable.update_central_cut]
  simp only [py, hl, h4, ha.helper, hl', h5, h1]

/-- A pair of offsets whose first entry is `None` is refused in two ways, depending on the sign of `tsq`; it is left out here. -/
theorem stable_late_q {cut : Cut n} {v : Val} {late : Vec n → Vec n} (hv : IsCut st cut v) (hx : ∀ lg vb, v = .tuple [.ref lg, vb] → Late lx lg cut.1 late) (hb : ∀ bs, cut.2 ≠ .seq (none :: bs)) :
    ∃ st', call (mach A ext) (fuel + 7) (.meth (.ref l) "update_q") [v] st = outcome statusVal (A.stableCoreLate late e cut (A.calcSingleOrParallelQ e.helper)).2 st'
      ∧ StableAt A st' l lm lx (A.stableCoreLate late e cut (A.calcSingleOrParallelQ e.helper)).1 ∧ Frame (fun k => k = l ∨ k = lm ∨ k = lx) st st' := by
  obtain ⟨attrs, lc, hl, ha, hc⟩ := he.obj
  obtain ⟨st', h1, h2, h3⟩ := stable_update_core hA (ext := ext) he (fuel + 4) hv hx "calc_single_or_parallel_q" (A.calcSingleOrParallelQ e.helper)
    (fun st' lc vb tsq h h' => calc_calc_single_or_parallel_q hA h fuel h' tsq (.inr hb)) (lc := lc)
    (fun a h => by rw [hl] at h; simp at h; rw [← h]; exact ha.helper)
  refine ⟨st', ?_, h2, h3⟩
  have h4 : attrs "_update_core" = none := ha.only _ (by decide)
  obtain ⟨-, attrs', lh, hl', ha', -⟩ := hc
  have h5 : attrs' "calc_single_or_parallel_q" = none := ha'.only _ (by decide)
  rw [call_meth hl method_EllStable_update_q rfl]
  simp only [Source.EllStable.EllStable.update_q]
  simp only [py, hl, h4, ha.helper, hl', h5, h1]

end core

/-- The gradient is not the array of the centre. -/
theorem late_of_ne {cut : Cut n} {v : Val} {lx : ℕ} (hx : ∀ vb, v ≠ .tuple [.ref lx, vb]) : ∀ lg vb, v = .tuple [.ref lg, vb] → Late lx lg cut.1 (fun _ => cut.1) :=
  fun lg vb hv => .inl ⟨by rintro rfl; exact hx vb hv, rfl⟩

section methods

variable {A : Arith} (hA : Literals A) {ext : ℕ → String → List Val → M W Val} {st : St W} {l lm lx : ℕ} {e : EllStable n} (he : StableAt A st l lm lx e) (fuel : ℕ)
include hA he

theorem stable_update_bias_cut {cut : Cut n} {v : Val} (hv : IsCut st cut v) (hx : ∀ vb, v ≠ .tuple [.ref lx, vb]) :
    ∃ st', call (mach A ext) (fuel + 7) (.meth (.ref l) "update_bias_cut") [v] st = outcome statusVal (A.stableBiasCut e cut).2 st'
      ∧ StableAt A st' l lm lx (A.stableBiasCut e cut).1 ∧ Frame (fun k => k = l ∨ k = lm ∨ k = lx) st st' :=
  stable_late_bias_cut hA he fuel hv (late_of_ne hx)

theorem stable_update_central_cut {cut : Cut n} {v : Val} (hv : IsCut st cut v) (hx : ∀ vb, v ≠ .tuple [.ref lx, vb]) :
    ∃ st', call (mach A ext) (fuel + 5) (.meth (.ref l) "update_central_cut") [v] st = outcome statusVal (A.stableCentralCut e cut).2 st'
      ∧ StableAt A st' l lm lx (A.stableCentralCut e cut).1 ∧ Frame (fun k => k = l ∨ k = lm ∨ k = lx) st st' :=
  stable_late_central_cut hA he fuel hv (late_of_ne hx)

theorem stable_update_q {cut : Cut n} {v : Val} (hv : IsCut st cut v) (hx : ∀ vb, v ≠ .tuple [.ref lx, vb]) (hb : ∀ bs, cut.2 ≠ .seq (none :: bs)) :
    ∃ st', call (mach A ext) (fuel + 7) (.meth (.ref l) "update_q") [v] st = outcome statusVal (A.stableQ e cut).2 st'
      ∧ StableAt A st' l lm lx (A.stableQ e cut).1 ∧ Frame (fun k => k = l ∨ k = lm ∨ k = lx) st st' :=
  stable_late_q hA he fuel hv (late_of_ne hx) hb

end methods

section accessors

variable {A : Arith} {ext : ℕ → String → List Val → M W Val} {st : St W} {l lm lx : ℕ} {e : EllStable n} (he : StableAt A st l lm lx e) (fuel : ℕ)
include he

/-- `xc()` returns the array itself. -/
theorem stable_xc : call (mach A ext) (fuel + 1) (.meth (.ref l) "xc") [] st = .ok (.ref lx) st := by
  obtain ⟨attrs, lc, hl, ha, hc⟩ := he.obj
  rw [call_meth hl method_EllStable_xc rfl]
  simp only [Source.EllStable.EllStable.xc]
  simp only [py, hl, ha.xc]

theorem stable_tsq : call (mach A ext) (fuel + 1) (.meth (.ref l) "tsq") [] st = .ok (.num e.tsq) st := by
  obtain ⟨attrs, lc, hl, ha, hc⟩ := he.obj
  rw [call_meth hl method_EllStable_tsq rfl]
  simp only [Source.EllStable.EllStable.tsq]
  simp only [py, hl, ha.tsq]

/-- `set_xc(x)` keeps the array, not a copy. -/
theorem stable_set_xc {lx' : ℕ} {x : Vec n} (hx : st.heap lx' = some (.vec n x)) (hlt : lx' < st.next) :
    ∃ st', call (mach A ext) (fuel + 1) (.meth (.ref l) "set_xc") [.ref lx'] st = .ok .none st'
      ∧ StableAt A st' l lm lx' (e.setXc x) ∧ Frame (fun k => k = l) st st' := by
  obtain ⟨hlm, -, -⟩ := he.ne
  obtain ⟨attrs, lc, hl, ha, hc⟩ := he.obj
  have hlx : lx' ≠ l := by rintro rfl; rw [hx] at hl; simp at hl
  rw [call_meth hl method_EllStable_set_xc rfl]
  simp only [Source.EllStable.EllStable.set_xc]
  simp only [py, hl]
  have hf : Frame (fun k => k = l) st (st.put l (.inst "EllStable" (attrs.set "_xc" (.ref lx')))) := (Frame.refl _ _).put _ (.inl rfl)
  refine ⟨_, rfl, ⟨⟨_, lc, heap_put_self _ _, ha.set (.inr (.inl ⟨rfl, rfl, rfl, rfl⟩)) rfl, he.calc hc (hf.mono fun _ => .inl)⟩, ?_, ?_, he.ltl, he.ltm, hlt, he.pos⟩, hf⟩
  · rw [heap_put_ne hlm.symm]; exact he.mq
  · rw [heap_put_ne hlx]; exact hx

end accessors

/-! ### The constructor -/

theorem square_of (m : Mat n) : Obj.square n (toArr2 m) = .mat n n (Matrix.of.symm m) := by
  simp only [Obj.square, toArr2, Fin.is_lt, dite_true]
  rfl

theorem stable_init {A : Arith} (hA : Literals A) {ext : ℕ → String → List Val → M W Val} {st : St W} (fuel : ℕ) (hn : A.rnd n = n)
    {val : InitVal n} {v : Val} (hv : IsInit A st val v) {lx : ℕ} {x : Vec n} (hx : st.heap lx = some (.vec n x)) (hlt : lx < st.next) :
    ∃ st', call (mach A ext) (fuel + 3) (.glob "EllStable") [v, .ref lx] st
        = (match A.stableInit val x with | .ok _ => Res.ok (.ref st.next) st' | .error e => Res.exc (excOf e) st')
      ∧ Frame (fun _ => False) st st' ∧ ∀ e, A.stableInit val x = .ok e → ∃ lm, st.next < lm ∧ StableAt A st' st.next lm lx e := by
  obtain ⟨s1, h1, hf1, hc1⟩ := calc_init hA (ext := ext) (st.alloc (.inst "EllStable" Env.empty)) fuel n (by exact_mod_cast hn)
  have hf : Frame (fun _ => False) st s1 := ⟨(Nat.le_succ _).trans hf1.next, hf1.world, fun k hk h =>
    (hf1.same k (hk.trans (Nat.lt_succ_self _)) h).trans (heap_alloc_ne hk.ne _)⟩
  have hl1 : s1.heap st.next = some (.inst "EllStable" Env.empty) :=
    (hf1.same st.next (Nat.lt_succ_self _) not_false).trans (heap_alloc_self _)
  have hn1 : st.next + 1 ≤ s1.next := hf1.next
  have hx1 : s1.heap lx = some (.vec n x) := (hf.same lx hlt not_false).trans hx
  rw [call_class (k := Source.EllStable.EllStable) (f := Source.EllStable.EllStable.__init__) rfl rfl rfl rfl]
  simp only [Source.EllStable.EllStable.__init__]
  simp only [py, hx, lt_ne hlt, h1, Arith.stableInit]
  rcases hr : A.calcInit n with e | c
  · simp only [py, hr]
    exact ⟨_, rfl, hf, nofun⟩
  have hpos : 0 < n := by
    rcases Nat.eq_zero_or_pos n with rfl | h
    · simp [Arith.calcInit] at hr
    · exact h
  have hne : (st.next = s1.next) = False := by simp; omega
  have hne' : (s1.next = st.next) = False := by simp; omega
  have hlx1 : (lx = s1.next) = False := by simp; omega
  have fin : ∀ (vk : Val) (kappa : ℝ) (m : Mat n) (o : Obj), vk.toFloat A = some kappa →
      StableAt A (((s1.put st.next o).alloc (.mat n n (Matrix.of.symm m))).put st.next (.inst "EllStable"
        ((((((Env.empty.set "helper" (.ref (st.next + 1))).set "_xc" (.ref lx)).set "_tsq" (.num 0)).set "_ndim" (.int n)).set "_kappa" vk).set "_mq" (.ref s1.next))))
        st.next s1.next lx { mq := toArr2 m, xc := x, kappa, tsq := 0, helper := c, noDeferTrick := false } := by
    intro vk kappa m o hk
    refine ⟨⟨_, st.next + 1, heap_put_self _ _, ⟨rfl, rfl, rfl, ⟨vk, rfl, hk⟩, rfl, rfl, .inr ⟨rfl, rfl⟩, fun a ha => ?_⟩, ?_⟩, ?_, ?_, ?_, ?_, ?_, hpos⟩
    · simp at ha
      simp only [py, ha]
    · refine (hc1 c hr).mono (by simp only [py]; omega) fun k hk cls attrs h1 h2 => ?_
      have : (k = st.next) = False := by simp; rintro rfl; rw [hl1] at h2; simp at h2; rcases h1 with rfl | rfl <;> simp at h2
      simp only [py, this, lt_ne hk]
    · rw [square_of]
      simp only [py, hne']
    · simp only [py, lt_ne hlt, hlx1, hx1]
    all_goals simp only [py]; omega
  have hfr : ∀ o o' o'', Frame (fun _ => False) st (((s1.put st.next o).alloc o').put st.next o'') := fun o o' o'' =>
    ((hf.put _ (.inr le_rfl)).alloc _).put _ (.inr le_rfl)
  cases hv with
  | num k =>
    simp only [py, hr, hl1, hne, hA.lit0]
    refine ⟨_, rfl, hfr _ _ _, ?_⟩
    rintro _ ⟨⟩
    exact ⟨s1.next, hn1, fin _ _ 1 _ rfl⟩
  | int k =>
    simp only [py, hr, hl1, hne, hA.lit0]
    refine ⟨_, rfl, hfr _ _ _, ?_⟩
    rintro _ ⟨⟩
    exact ⟨s1.next, hn1, fin _ _ 1 _ rfl⟩
  | list d =>
    simp only [py, hr, hl1, hne, hA.lit0, hA.lit1, np_diag (IsInit.list d)]
    refine ⟨_, rfl, hfr _ _ _, ?_⟩
    rintro _ ⟨⟩
    exact ⟨s1.next, hn1, fin _ _ (Matrix.diagonal d) _ rfl⟩
  | array l d hl hlt' =>
    have hd : ∀ o, IsInit A (s1.put st.next o) (.diag d) (.ref l) := fun o =>
      .array l d ((heap_put_ne hlt'.ne _).trans ((hf.same l hlt' not_false).trans hl)) (by simp only [py]; omega)
    simp only [py, hr, hl1, hne, hA.lit0, hA.lit1, np_diag (hd _)]
    refine ⟨_, rfl, hfr _ _ _, ?_⟩
    rintro _ ⟨⟩
    exact ⟨s1.next, hn1, fin _ _ (Matrix.diagonal d) _ rfl⟩

/-! ### `EllStable` as a search space -/

/-- `ell_stable.py` on machine numbers as a search space. -/
noncomputable def _root_.Ellalgo.Arith.stableSpace (A : Arith) (n : ℕ) : SearchSpace (EllStable n) (Vec n) (Cut n) ℝ where
  xc e := e.xc
  tsq e := e.tsq
  setXc := EllStable.setXc
  updateBiasCut := A.stableBiasCut
  updateCentralCut := A.stableCentralCut
  updateQ := A.stableQ

theorem stable_space {A : Arith} (hA : Literals A) (ext : ℕ → String → List Val → M W Val) (fuel l lm lx : ℕ) :
    SpaceAt A ext (fuel + 7) (.ref l) (fun k => k = l ∨ k = lm ∨ k = lx) (A.stableSpace n) (fun st e => StableAt A st l lm lx e) False where
  bound h k hk := by rcases hk with rfl | rfl | rfl; exacts [h.ltl, h.ltm, h.ltx]
  noOptions h k hk attrs hh := by
    obtain ⟨a, lc, hl, -, -⟩ := h.obj
    rcases hk with rfl | rfl | rfl
    · rw [hl] at hh; simp at hh
    · rw [h.mq] at hh; simp [Obj.square] at hh
    · rw [h.xc] at hh; simp at hh
  stable {st st' e} h hn hs := by
    obtain ⟨⟨attrs, lc, hl, ha, hc⟩, hmq, hxc, hlt, hltm, hltx, hpos⟩ := h
    refine ⟨⟨attrs, lc, (hs l hlt (.inl (.inl rfl))).trans hl, ha, hc.mono hn fun k hk cls attrs h1 h2 => hs k hk (.inr ⟨cls, attrs, ?_, h2⟩)⟩, ?_, ?_, hlt.trans_le hn, hltm.trans_le hn, hltx.trans_le hn, hpos⟩
    · rcases h1 with rfl | rfl <;> simp [spaceClasses]
    · exact (hs lm hltm (.inl (.inr (.inl rfl)))).trans hmq
    · exact (hs lx hltx (.inl (.inr (.inr rfl)))).trans hxc
  has {st e} h m hm cl := by
    obtain ⟨attrs, lc, hl, ha, -⟩ := h.obj
    have hm' : m ∉ ["helper", "_mq", "_xc", "_kappa", "_tsq", "_ndim", "no_defer_trick"] := by
      simp only [List.mem_cons, List.not_mem_nil, or_false] at hm
      rcases hm with rfl | rfl | rfl | rfl | rfl <;> decide
    have := ha.only m hm'
    simp only [List.mem_cons, List.not_mem_nil, or_false] at hm
    rcases hm with rfl | rfl | rfl | rfl | rfl <;> simp only [py, hl, this]
  xc h := ⟨lx, stable_xc h (fuel + 6), h.ltx, h.xc, .inr (.inr rfl)⟩
  tsq h := stable_tsq h (fuel + 6)
  bias h hc hw := stable_update_bias_cut hA h fuel hc fun vb hv => hw.elim id fun hw => hw lx vb hv (.inr (.inr rfl))
  central h hc hw := stable_update_central_cut hA h (fuel + 2) hc fun vb hv => hw.elim id fun hw => hw lx vb hv (.inr (.inr rfl))
  q h hc hw hb := stable_update_q hA h fuel hc (fun vb hv => hw.elim id fun hw => hw lx vb hv (.inr (.inr rfl))) hb

end Ellalgo.Py
