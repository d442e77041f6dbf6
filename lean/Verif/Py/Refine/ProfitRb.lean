import Verif.Py.Refine.Profit

/-!
# The text of `profit_oracle.py`, `ProfitRbOracle`, computes what `Model/RoundedProfit` says
-/

set_option linter.unusedSimpArgs false

namespace Ellalgo.Py

open CuttingPlane

variable {W : Type} {A : Arith} {ext : ℕ → String → List Val → M W Val} {fuel : ℕ} {st : St W}

theorem set_vec {n l : ℕ} {x : Fin n → ℝ} (h : st.heap l = some (.vec n x)) (i : Fin n) (y : ℝ) :
    setItem A (.ref l) [.pos ((i : ℕ) : ℤ)] (.num y) st = .ok () (st.put l (.vec n (Function.update x i y))) := by
  simp only [setItem, setEntry, bind_apply, getObj_apply h, rbind_ok, entry, normIdx_nat i.2, orIndexError, py]
  congr 4
  funext a
  by_cases ha : a = i
  · subst ha; simp
  · have : (a : ℕ) ≠ i := fun e => ha (Fin.ext e)
    simp [ha, this]

/-- Another array of elasticities. -/
theorem ProfitAt.setEl {l k : ℕ} {o : ProfitOracle} {y : Vec 2} {st0 : St W} (h : ProfitAt l st o) (hk : st.heap k = some (.vec 2 y)) (hk' : k < st.next) {attrs : Env} (hl : st.heap l = some (.inst "ProfitOracle" attrs))
    (hm : PMoves l st0 st) (hn : st0.next ≤ k) :
    ProfitAt l (st.put l (.inst "ProfitOracle" (attrs.set "elasticities" (.ref k)))) { o with elasticities := y } ∧ PMoves l st0 (st.put l (.inst "ProfitOracle" (attrs.set "elasticities" (.ref k)))) := by
  obtain ⟨⟨attrs', la, lp, lq, hl', ha, hla, hlp, hlq, h1, h2⟩, hlt, hi⟩ := h
  obtain rfl : attrs = attrs' := by rw [hl] at hl'; simpa using hl'
  have hkl : (k = l) = False := by simp; rintro rfl; rw [hl] at hk; simp at hk
  have hpl : (lp = l) = False := by simp; rintro rfl; rw [hl] at hlp; simp at hlp
  refine ⟨⟨⟨_, k, lp, lq, heap_put_self _ _, ⟨?_, ?_, ?_, ?_, ?_, ?_, ?_, ?_, ?_, ?_, fun a ha' => ?_⟩, ?_, ?_, fun e he => ⟨?_, (hlq e he).2⟩, hk', h2⟩, hlt, hi⟩, ⟨hm.frame.put _ (.inl rfl), fun j hj => ?_⟩⟩
  · simpa only [py] using ha.idx
  · simpa only [py] using ha.logPA
  · simpa only [py] using ha.logK
  · simpa only [py] using ha.price
  · simp only [py]
  · simpa only [py] using ha.fns
  · simpa only [py] using ha.grads
  · simpa only [py] using ha.cobb
  · simpa only [py] using ha.q
  · simpa only [py] using ha.vy
  · have := ha.only a ha'
    simp at ha'
    simp only [py, ha', this]
  · simp only [py, hkl, hk]
  · simp only [py, hpl, hlp]
  · have hql : (lq = l) = False := by simp; rintro rfl; rw [(hlq e he).1] at hl; simp at hl
    simp only [py, hql, (hlq e he).1]
  · rcases hj with rfl | ⟨attrs', a, h3, h4, h5⟩
    · exact hm.own _ (.inl rfl)
    · rw [heap_put_self] at h3
      simp only [Option.some.injEq, Obj.inst.injEq, true_and] at h3
      subst h3
      simp only [List.mem_cons, List.not_mem_nil, or_false] at h4
      rcases h4 with rfl | rfl | rfl
      · exact hm.own j (.inr ⟨attrs, "price_out", hl, by simp, by simpa only [py] using h5⟩)
      · simp only [py, Option.some.injEq, Val.ref.injEq] at h5
        right; omega
      · exact hm.own j (.inr ⟨attrs, "q", hl, by simp, by simpa only [py] using h5⟩)

/-! ### The object -/

/-- A `ProfitRbOracle` in the state `o`: the object is at `l`, its `ProfitOracle` at `lo`, its elasticities at `la`. -/
structure RbAt (l lo la : ℕ) (st : St W) (o : ProfitRbOracle) : Prop where
  obj : ∃ attrs, st.heap l = some (.inst "ProfitRbOracle" attrs) ∧ attrs "elasticities" = some (.ref la) ∧ attrs "uie" = some (.list [.num (o.uie 0), .num (o.uie 1)]) ∧ attrs "omega" = some (.ref lo)
    ∧ ∀ a ∉ ["elasticities", "uie", "omega"], attrs a = none
  arr : st.heap la = some (.vec 2 o.elasticities)
  omega : ProfitAt lo st o.omega
  lt : l < st.next
  lta : la < st.next

/-- Its locations. -/
def rbOwn (l lo la : ℕ) (st : St W) (k : ℕ) : Prop := k = l ∨ k = la ∨ profitOwn lo st k

section

variable {l lo la : ℕ} {o : ProfitRbOracle}

theorem ProfitAt.class {l : ℕ} {o : ProfitOracle} (h : ProfitAt l st o) : ∃ attrs, st.heap l = some (.inst "ProfitOracle" attrs) := by
  obtain ⟨attrs, _, _, _, hl, -⟩ := h.obj
  exact ⟨attrs, hl⟩

theorem RbAt.ne (h : RbAt l lo la st o) : l ≠ lo ∧ la ≠ lo ∧ la ≠ l := by
  obtain ⟨attrs, hl, -⟩ := h.obj
  obtain ⟨at', hl'⟩ := h.omega.class
  have := h.arr
  refine ⟨?_, ?_, ?_⟩ <;> rintro rfl
  · rw [hl] at hl'; simp at hl'
  · rw [this] at hl'; simp at hl'
  · rw [this] at hl; simp at hl

/-- Calls of methods of the inner oracle. -/
theorem RbAt.step {st' : St W} {om : ProfitOracle} (h : RbAt l lo la st o) (hm : PMoves lo st st') (ho : ProfitAt lo st' om) : RbAt l lo la st' { o with omega := om } := by
  obtain ⟨h1, h2, -⟩ := h.ne
  obtain ⟨attrs, hl, hr⟩ := h.obj
  exact ⟨⟨attrs, (hm.frame.same l h.lt h1).trans hl, hr⟩, (hm.frame.same la h.lta h2).trans h.arr, ho, h.lt.trans_le hm.frame.next, h.lta.trans_le hm.frame.next⟩

theorem PMoves.rb {st' : St W} (h : PMoves lo st st') : Moves (rbOwn l lo la) st st' :=
  ⟨⟨h.frame.next, fun k hk ho => h.frame.same k hk fun e => ho (.inr (.inr (.inl e)))⟩, fun k hk => by
    rcases hk with rfl | rfl | hk
    · exact .inl (.inl rfl)
    · exact .inl (.inr (.inl rfl))
    · exact (h.own k hk).imp_left fun h => .inr (.inr h)⟩

theorem rb_at (l lo la : ℕ) : OracleAt (rbOwn (W := W) l lo la) (RbAt l lo la) where
  bound h k hk := by
    rcases hk with rfl | rfl | hk
    · exact h.lt
    · exact h.lta
    · exact h.omega.bound k hk
  foreign h k hk cls attrs hh := by
    rcases hk with rfl | rfl | hk
    · obtain ⟨at', hl, -⟩ := h.obj
      rw [hl] at hh
      simp only [Option.some.injEq, Obj.inst.injEq] at hh
      rw [← hh.1]; decide
    · rw [h.arr] at hh; simp at hh
    · exact (profit_at lo).foreign h.omega k hk cls attrs hh
  stable {st st' o} h hf := by
    have hs : ∀ k, rbOwn l lo la st k → k < st.next → st'.heap k = st.heap k := fun k hk hlt => hf.same k hlt (not_not.mpr hk)
    obtain ⟨h1, h2⟩ := (profit_at lo).stable h.omega (st' := st') ⟨hf.next, hf.world, fun k hk ho => hf.same k hk fun hn => ho fun h => hn (.inr (.inr h))⟩
    obtain ⟨attrs, hl, hr⟩ := h.obj
    refine ⟨⟨⟨attrs, (hs l (.inl rfl) h.lt).trans hl, hr⟩, (hs la (.inr (.inl rfl)) h.lta).trans h.arr, h1, h.lt.trans_le hf.next, h.lta.trans_le hf.next⟩, fun k hk => ?_⟩
    exact hk.imp_right fun hk => hk.imp_right (h2 k)

/-! ### `assess_optim` -/

/-- One turn of the loop over the two elasticities. -/
theorem rb_turn (hA : Literals A) {lx ka : ℕ} {x y u : Vec 2} {attrs : Env} {env : Env} (h1 : env "self" = some (.ref l)) (h2 : env "xc" = some (.ref lx)) (h3 : env "a_rb" = some (.ref ka))
    (hl : st.heap l = some (.inst "ProfitRbOracle" attrs)) (hu : attrs "uie" = some (.list [.num (u 0), .num (u 1)])) (hx : st.heap lx = some (.vec 2 x)) (hk : st.heap ka = some (.vec 2 y)) (i : Fin 2) {z : ℤ} (hz : z = ((i : ℕ) : ℤ)) :
    turn (mach A ext) (call (mach A ext) fuel) (.name "i") (loopBody Source.ProfitOracle.ProfitRbOracle.assess_optim.body) (.int z) env st
      = .ok (.next (env.set "i" (.int z))) (st.put ka (.vec 2 (Function.update y i (A.add (y i) (if x i > 0 then -u i else u i))))) := by
  subst hz
  have hui : getItem (.list [.num (u 0), .num (u 1)]) [.pos ((i : ℕ) : ℤ)] st = .ok (.num (u i)) st := by
    have := item_list (st := st) (fun k : Fin 2 => Val.num (u k)) i
    simpa [List.ofFn_succ] using this
  have hxi := item_vec hx i
  have hyi := item_vec hk i
  simp only [loopBody, Source.ProfitOracle.ProfitRbOracle.assess_optim]
  by_cases hp : x i > 0
  · rw [if_pos hp]
    simp only [py, h1, h2, h3, hyi, hxi, hl, hu, hui, hA.lit0, hp, set_vec hk]
  · rw [if_neg hp]
    simp only [py, h1, h2, h3, hyi, hxi, hl, hu, hui, hA.lit0, hp, set_vec hk]

/-- Both turns. -/
theorem rb_loop (hA : Literals A) {lx ka : ℕ} {x : Vec 2} {attrs : Env} {env : Env} (h1 : env "self" = some (.ref l)) (h2 : env "xc" = some (.ref lx)) (h3 : env "a_rb" = some (.ref ka))
    (hl : st.heap l = some (.inst "ProfitRbOracle" attrs)) (hu : attrs "uie" = some (.list [.num (o.uie 0), .num (o.uie 1)])) (hx : st.heap lx = some (.vec 2 x)) (hk : st.heap ka = some (.vec 2 o.elasticities))
    (hlk : l ≠ ka) (hxk : lx ≠ ka) :
    ∃ env' y, loop (turn (mach A ext) (call (mach A ext) fuel) (.name "i") (loopBody Source.ProfitOracle.ProfitRbOracle.assess_optim.body)) [.int 0, .int 1] env st
        = .ok (.next env') ((st.put ka y).put ka (.vec 2 (A.profitWorst o x)))
      ∧ env' "self" = env "self" ∧ env' "xc" = env "xc" ∧ env' "gamma" = env "gamma" ∧ env' "a_rb" = env "a_rb" := by
  have t1 := rb_turn (A := A) (ext := ext) (fuel := fuel) hA h1 h2 h3 hl hu hx hk 0 (z := 0) rfl
  have t2 := rb_turn (A := A) (ext := ext) (fuel := fuel) (st := st.put ka (.vec 2 (Function.update o.elasticities 0 (A.add (o.elasticities 0) (if x 0 > 0 then -o.uie 0 else o.uie 0)))))
    (env := env.set "i" (.int 0)) (l := l) (lx := lx) (ka := ka) (x := x) (u := o.uie) (attrs := attrs) hA (by simpa only [py] using h1) (by simpa only [py] using h2) (by simpa only [py] using h3)
    ((heap_put_ne hlk _).trans hl) hu ((heap_put_ne hxk _).trans hx) (heap_put_self _ _) 1 (z := 1) rfl
  refine ⟨(env.set "i" (.int 0)).set "i" (.int 1), .vec 2 (Function.update o.elasticities 0 (A.add (o.elasticities 0) (if x 0 > 0 then -o.uie 0 else o.uie 0))), ?_, by simp only [py], by simp only [py], by simp only [py], by simp only [py]⟩
  have hy : Function.update (Function.update o.elasticities 0 (A.add (o.elasticities 0) (if x 0 > 0 then -o.uie 0 else o.uie 0))) 1
      (A.add ((Function.update o.elasticities 0 (A.add (o.elasticities 0) (if x 0 > 0 then -o.uie 0 else o.uie 0))) 1) (if x 1 > 0 then -o.uie 1 else o.uie 1)) = A.profitWorst o x := by
    funext i
    fin_cases i <;> simp [Arith.profitWorst]
  rw [hy] at t2
  generalize turn (mach A ext) (call (mach A ext) fuel) (.name "i") _ = T at t1 t2
  rw [loop_cons, t1, rbind_ok, again_next, loop_cons, t2, rbind_ok, again_next, loop_nil]

/-- What comes before the call of the inner oracle. -/
theorem rb_before (hA : Literals A) {lx : ℕ} {x : Vec 2} {vg : Val} (h : RbAt l lo la st o) (hx : st.heap lx = some (.vec 2 x)) (hlx : lx < st.next) :
    ∃ st' env', ProfitAt lo st' { o.omega with elasticities := A.profitWorst o x } ∧ PMoves lo st st' ∧ env' "self" = some (.ref l) ∧ env' "xc" = some (.ref lx) ∧ env' "gamma" = some vg
      ∧ ∀ R, execs (mach A ext) (call (mach A ext) (fuel + 1)) (List.take 3 Source.ProfitOracle.ProfitRbOracle.assess_optim.body ++ R) (((Env.empty.set "self" (.ref l)).set "xc" (.ref lx)).set "gamma" vg) st
        = execs (mach A ext) (call (mach A ext) (fuel + 1)) R env' st' := by
  obtain ⟨hn1, hn2, hn3⟩ := h.ne
  obtain ⟨attrs, hl, he, hu, ho, hr⟩ := h.obj
  obtain ⟨ato, hlo⟩ := h.omega.class
  have hlo' := h.omega.lt
  have hlt := h.lt
  have hs1 : ∀ k < st.next, (st.alloc (.vec 2 o.elasticities)).heap k = st.heap k := fun k hk => heap_alloc_ne hk.ne _
  obtain ⟨env', y, t, e1, e2, e3, e4⟩ := rb_loop (A := A) (ext := ext) (fuel := fuel + 1) (st := st.alloc (.vec 2 o.elasticities)) (l := l) (lx := lx) (ka := st.next) (x := x) (o := o) (attrs := attrs)
    (env := (((Env.empty.set "self" (.ref l)).set "xc" (.ref lx)).set "gamma" vg).set "a_rb" (.ref st.next)) hA (by simp only [py]) (by simp only [py]) (by simp only [py])
    ((hs1 l h.lt).trans hl) hu ((hs1 lx hlx).trans hx) (heap_alloc_self _) h.lt.ne hlx.ne
  simp only [py] at e1 e2 e3 e4
  have hs3 : ∀ k < st.next, (((st.alloc (.vec 2 o.elasticities)).put st.next y).put st.next (.vec 2 (A.profitWorst o x))).heap k = st.heap k :=
    fun k hk => (heap_put_ne hk.ne _).trans ((heap_put_ne hk.ne _).trans (hs1 k hk))
  have hk3 : (((st.alloc (.vec 2 o.elasticities)).put st.next y).put st.next (.vec 2 (A.profitWorst o x))).heap st.next = some (.vec 2 (A.profitWorst o x)) := heap_put_self _ _
  have hf3 : Frame (· = lo) st (((st.alloc (.vec 2 o.elasticities)).put st.next y).put st.next (.vec 2 (A.profitWorst o x))) :=
    (((Frame.refl (· = lo) st).alloc _).put _ (.inr le_rfl)).put _ (.inr le_rfl)
  have hn3 : st.next < (((st.alloc (.vec 2 o.elasticities)).put st.next y).put st.next (.vec 2 (A.profitWorst o x))).next := Nat.lt_succ_self _
  generalize ((st.alloc (.vec 2 o.elasticities)).put st.next y).put st.next (.vec 2 (A.profitWorst o x)) = s3 at t hs3 hk3 hf3 hn3
  have hm3 : PMoves lo st s3 := by
    refine ⟨hf3, fun k hk => .inl (hk.imp_right ?_)⟩
    rintro ⟨at', a, h1, h2⟩
    exact ⟨at', a, (hs3 lo hlo').symm.trans h1, h2⟩
  have hp3 : ProfitAt lo s3 o.omega := h.omega.mono hm3.frame.next fun k hk => hs3 k (h.omega.bound k hk)
  have hl3 := (hs3 l h.lt).trans hl
  have hlo3 := (hs3 lo hlo').trans hlo
  obtain ⟨h4, h5⟩ := hp3.setEl hk3 hn3 hlo3 hm3 le_rfl
  refine ⟨_, env', h4, h5, e1, e2, e3, fun R => ?_⟩
  simp only [loopBody, Source.ProfitOracle.ProfitRbOracle.assess_optim] at t
  simp only [Source.ProfitOracle.ProfitRbOracle.assess_optim, List.take, List.cons_append, List.nil_append]
  have ha : ∀ env : Env, env "self" = some (.ref l) → env "copy" = none → eval (mach A ext) (call (mach A ext) (fuel + 1)) env (.call (.attr (.name "copy") "copy") [.attr (.name "self") "elasticities"]) st
      = .ok (.ref st.next) (st.alloc (.vec 2 o.elasticities)) := fun env he' hc => by
    simp only [py, he', hc, hl, he, h.arr]
  rw [execs_cons, exec_assign, ha _ (by simp only [py]) (by simp only [py]), rbind_ok]
  simp only [assign_name, bind_apply, rbind_ok, pure_apply, after_next]
  rw [execs_cons, exec_for]
  simp only [eval_list, evals_cons, evals_nil, eval_int, iterate_list, rbind_ok, bind_apply, pure_apply, Nat.cast_zero, Nat.cast_one]
  rw [t]
  simp only [py, e1, e4, hl3, ho, hlo3]

theorem rb_optim (hA : Literals A) {lx : ℕ} {x : Vec 2} {vg : Val} {g : ℝ} (h : RbAt l lo la st o) (hx : st.heap lx = some (.vec 2 x)) (hlx : lx < st.next) (hg : vg.toFloat A = some g) :
    OptimRes lo st (A.profitOptim { o.omega with elasticities := A.profitWorst o x } x g) (call (mach A ext) (fuel + 5) (.meth (.ref l) "assess_optim") [.ref lx, vg] st) := by
  obtain ⟨attrs, hl, he, hu, ho, hr⟩ := h.obj
  obtain ⟨s1, env, h1, h2, e1, e2, e3, h3⟩ := rb_before (A := A) (ext := ext) (fuel := fuel + 3) (vg := vg) hA h hx hlx
  have hl1 := (h2.frame.same l h.lt h.ne.1).trans hl
  obtain ⟨ato, la1, lp1, lq1, hlo, hao, -⟩ := h1.obj
  have hac := hao.only "assess_optim" (by decide)
  have hp := profit_optim (A := A) (ext := ext) (fuel := fuel) hA h1 ((h2.frame.same lx hlx (h.omega.ne hx)).trans hx) (hlx.trans_le h2.frame.next) hg
  refine OptimRes.pre h2 ?_
  have h4 := h3 (List.drop 3 Source.ProfitOracle.ProfitRbOracle.assess_optim.body)
  rw [call_meth hl method_ProfitRbOracle_assess_optim rfl]
  simp only [Source.ProfitOracle.ProfitRbOracle.assess_optim, List.take, List.drop, List.cons_append, List.nil_append] at h4 ⊢
  rw [runBody_cons, runBody_cons, runBody_cons, runBody_nil, h4, execs_cons, exec_ret]
  simp only [eval_call, eval_attr, eval_name, evals_cons, evals_nil, e1, e2, e3, py, hl1, ho, hlo, hac]
  revert hp
  generalize call (mach A ext) (fuel + 4) _ _ _ = R
  intro hp
  rcases hr : A.profitOptim { o.omega with elasticities := A.profitWorst o x } x g with ⟨o1, f | ⟨c, g1⟩⟩ <;> rw [hr] at hp
  · obtain ⟨s, h5, h6⟩ := hp
    subst h5
    exact ⟨s, rfl, h6⟩
  · obtain ⟨s, k, h5, h6⟩ := hp
    subst h5
    exact ⟨s, k, rfl, h6⟩

end

/-! ### As an oracle of the loops -/

/-- `ProfitRbOracle.assess_optim` as the oracle of `cutting_plane_optim`. -/
noncomputable def _root_.Ellalgo.Arith.profitRbOracle (A : Arith) : OracleOptim ProfitRbOracle (Vec 2) (Cut 2) ℝ := fun o x γ =>
  ((A.profitRbOptim o x γ).1, (A.profitRbOptim o x γ).2.map fun a => ((a.1.1, CutChoice.scalar a.1.2), a.2))

/-- `ProfitRbOracle` meets the contract for `assess_optim`. -/
theorem rb_oracle {free : Prop} (hA : Literals A) (l lo la : ℕ) : OptimOracle A ext (fuel + 5) (.ref l) (rbOwn (W := W) l lo la) A.profitRbOracle (IsTarget A) (RbAt l lo la) free where
  toOracleAt := rb_at l lo la
  has {st o} h := by
    obtain ⟨attrs, hl, -, -, -, hr⟩ := h.obj
    have := hr "assess_optim" (by decide)
    intro cl
    simp only [py, hl, this]
  num h := h.isNone
  assess {st o lx x g vg} h hx hlx hg := by
    have := rb_optim (A := A) (ext := ext) (fuel := fuel) hA h hx hlx hg
    simp only [Arith.profitRbOracle, Arith.profitRbOptim]
    rcases hr : A.profitOptim { o.omega with elasticities := A.profitWorst o x } x g with ⟨o1, f | ⟨c, _ | g1⟩⟩ <;> rw [hr] at this
    · obtain ⟨s, h1, h2, h3⟩ := this
      exact ⟨s, h1, h.step h3 h2, h3.rb⟩
    · obtain ⟨s, k, h1, h2, h3, h4, h5, h6⟩ := this
      exact ⟨_, s, h1, h.step h3 h2, h3.rb, isCut_new h4 h6, .inr (ownCut_new h5)⟩
    · obtain ⟨s, k, h1, h2, h3, h4, h5, h6⟩ := this
      exact ⟨_, _, s, h1, h.step h3 h2, h3.rb, isCut_new h4 h6, .inr (ownCut_new h5), rfl⟩

/-- `ProfitRbOracle((unit_price, scale, limit), elasticities, price_out, (e1, e2, e3, e4, e5))`. -/
theorem rb_init {la lp : ℕ} {a v : Vec 2} (hla : st.heap la = some (.vec 2 a)) (hlp : st.heap lp = some (.vec 2 v)) (h1 : la < st.next) (h2 : lp < st.next) (p s k e1 e2 e3 e4 e5 : ℝ) :
    match A.profitRbInit p s k a v e1 e2 e3 e4 e5 with
    | .error f => ∃ st', call (mach A ext) (fuel + 3) (.glob "ProfitRbOracle") [.tuple [.num p, .num s, .num k], .ref la, .ref lp, .tuple [.num e1, .num e2, .num e3, .num e4, .num e5]] st = .exc (excOf f) st'
        ∧ Frame (fun _ => False) st st'
    | .ok o => ∃ st' lo, call (mach A ext) (fuel + 3) (.glob "ProfitRbOracle") [.tuple [.num p, .num s, .num k], .ref la, .ref lp, .tuple [.num e1, .num e2, .num e3, .num e4, .num e5]] st = .ok (.ref st.next) st'
        ∧ RbAt st.next lo la st' o ∧ Frame (fun _ => False) st st' ∧ ∀ j, rbOwn st.next lo la st' j → j = la ∨ st.next ≤ j := by
  set at1 := (Env.empty.set "elasticities" (.ref la)).set "uie" (.list [.num e1, .num e2]) with hat
  set s1 := st.alloc (.inst "ProfitRbOracle" at1) with hs1
  set s2 := s1.alloc (.vec 2 ![e5, e5]) with hs2
  set s3 := s2.alloc (.vec 2 fun i => A.add (v i) e5) with hs3
  have hf : Frame (fun _ => False) st s3 := (((Frame.refl (fun _ => False) st).alloc _).alloc _).alloc _
  have hn : s3.next = st.next + 3 := rfl
  have hl3 : s3.heap st.next = some (.inst "ProfitRbOracle" at1) := by
    rw [hs3, heap_alloc_ne (show st.next ≠ s2.next by show st.next ≠ st.next + 2; omega), hs2, heap_alloc_ne (show st.next ≠ s1.next by show st.next ≠ st.next + 1; omega), hs1]; exact heap_alloc_self _
  have hlv : s3.heap s2.next = some (.vec 2 fun i => A.add (v i) e5) := heap_alloc_self _
  have hi := profit_init (A := A) (ext := ext) (fuel := fuel) (st := s3) ((hf.same la h1 not_false).trans hla) hlv (h1.trans_le hf.next) (Nat.lt_succ_self _) (A.sub p e3) s (A.sub k e4)
  have hadd : (fun i => A.add (v i) (![e5, e5] i)) = fun i => A.add (v i) e5 := by funext i; fin_cases i <;> rfl
  have h2p : s2.heap lp = some (.vec 2 v) := (heap_alloc_ne (h2.trans (Nat.lt_succ_self _)).ne _).trans ((heap_alloc_ne h2.ne _).trans hlp)
  have h2e : s2.heap s1.next = some (.vec 2 ![e5, e5]) := heap_alloc_self _
  have hc : call (mach A ext) (fuel + 3) (.glob "ProfitRbOracle") [.tuple [.num p, .num s, .num k], .ref la, .ref lp, .tuple [.num e1, .num e2, .num e3, .num e4, .num e5]] st
      = (call (mach A ext) (fuel + 2) (.glob "ProfitOracle") [.tuple [.num (A.sub p e3), .num s, .num (A.sub k e4)], .ref la, .ref s2.next] s3).bind fun w => M.bind (setAttr (.ref st.next) "omega" w) fun _ => M.pure (.ref st.next) := by
    rw [call_class (k := Source.ProfitOracle.ProfitRbOracle) (f := Source.ProfitOracle.ProfitRbOracle.__init__) rfl rfl rfl rfl]
    simp only [Source.ProfitOracle.ProfitRbOracle.__init__]
    simp only [py, ← hat, ← hs1, array_two, ← hs2, h2p, h2e, hadd, ← hs3]
    generalize call (mach A ext) (fuel + 2) _ _ _ = R
    cases R with
    | ok w t =>
      simp only [py]
      generalize setMember st.next "omega" w (t.heap st.next) t = R
      cases R <;> rfl
    | exc e t => rfl
    | stuck => rfl
  rw [hc]
  simp only [Arith.profitRbInit]
  cases hr : A.profitInit (A.sub p e3) s (A.sub k e4) a fun i => A.add (v i) e5 with
  | error f =>
    rw [hr] at hi
    obtain ⟨s4, h4, h5⟩ := hi
    exact ⟨s4, by rw [h4]; rfl, hf.trans h5⟩
  | ok o =>
    rw [hr] at hi
    obtain ⟨s4, h4, h5, h6, h7⟩ := hi
    have hl4 : s4.heap st.next = some (.inst "ProfitRbOracle" at1) := (h6.same _ (by omega) not_false).trans hl3
    have hlt4 := h5.lt
    refine ⟨s4.put st.next (.inst "ProfitRbOracle" (at1.set "omega" (.ref s3.next))), s3.next, ?_, ⟨⟨_, heap_put_self _ _, ?_, ?_, ?_, fun b hb => ?_⟩, ?_, ?_, ?_, ?_⟩, (hf.trans h6).put _ (.inr le_rfl), ?_⟩
    · rw [h4]; simp only [py, hl4]
    · simp only [hat, py]
    · simp only [hat, py]; rfl
    · simp only [hat, py]
    · simp only [List.mem_cons, List.not_mem_nil, or_false, not_or] at hb
      simp only [hat, py, hb]
    · rw [heap_put_ne h1.ne, h6.same la (by omega) not_false, hf.same la h1 not_false, hla]
    · refine h5.mono le_rfl fun j hj => heap_put_ne ?_ _
      rcases h7 j hj with rfl | rfl | rfl
      · omega
      · omega
      · show st.next + 2 ≠ st.next; omega
    · show st.next < s4.next; omega
    · show la < s4.next; omega
    · rintro j (rfl | rfl | hj)
      · exact .inr le_rfl
      · exact .inl rfl
      · have hj' : profitOwn s3.next s4 j := by
          refine hj.imp_right ?_
          rintro ⟨at', b, h8, h9⟩
          rw [heap_put_ne (by omega)] at h8
          exact ⟨at', b, h8, h9⟩
        rcases h7 j hj' with rfl | rfl | rfl
        · right; omega
        · exact .inl rfl
        · right; show st.next ≤ st.next + 2; omega

end Ellalgo.Py
