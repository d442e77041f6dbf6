import Verif.Py.Refine.ProfitRb

/-!
# The text of `profit_oracle.py`, `ProfitQOracle`, computes what `Model/RoundedProfit` says
-/

set_option linter.unusedSimpArgs false

namespace Ellalgo.Py

open CuttingPlane

variable {W : Type} {A : Arith} {ext : ℕ → String → List Val → M W Val} {fuel : ℕ} {st : St W}

/-! ### Rounding -/

theorem halfEven_eq (x : ℝ) : halfEven x = npRound x := by
  simp only [halfEven, npRound, Int.fract, Int.even_iff]
  by_cases h1 : x - ⌊x⌋ < 1 / 2
  · simp only [h1, if_true]
  · by_cases h2 : 1 / 2 < x - ⌊x⌋
    · simp only [h1, h2, if_true, if_false, h2.ne', false_and]
    · have h3 : x - ⌊x⌋ = 1 / 2 := le_antisymm (not_lt.mp h2) (not_lt.mp h1)
      rw [h3]
      norm_num

theorem npRound_nonneg {x : ℝ} (h : 0 ≤ x) : 0 ≤ npRound x := by
  have := Int.floor_nonneg.mpr h
  unfold npRound
  split_ifs <;> omega

/-- Numbers that are not negative stay so. -/
def KeepsSign (A : Arith) : Prop := ∀ x, 0 ≤ x → 0 ≤ A.rnd x

theorem profitRound_pos (hS : KeepsSign A) (x : ℝ) : 0 < A.profitRound x := by
  unfold Arith.profitRound
  split_ifs with h
  · exact one_pos
  · exact lt_of_le_of_ne (hS _ (by exact_mod_cast npRound_nonneg (hS _ (Real.exp_pos x).le))) (Ne.symm h)

theorem toIdx_mask {l n : ℕ} {b : Fin n → Prop} (h : st.heap l = some (.mask n b)) : toIdx (.ref l) st = .ok (.mask n b) st := by
  simp only [toIdx, bind_apply, getObj_apply h, rbind_ok, pure_apply]

open Classical in
theorem set_mask {l n : ℕ} {x : Fin n → ℝ} {b : Fin n → Prop} (h : st.heap l = some (.vec n x)) (y : ℝ) :
    setItem A (.ref l) [.mask n b] (.num y) st = .ok () (st.put l (.vec n fun i => if b i then y else x i)) := by
  simp only [setItem, setEntry, bind_apply, getObj_apply h, rbind_ok, entry, py, dite_true, Fin.cast_refl, id]

theorem npLog_ref {l n : ℕ} {x : Fin n → ℝ} (h : st.heap l = some (.vec n x)) (hp : ∀ i, 0 < x i) :
    npLogOf A (.ref l) st = .ok (.ref st.next) (st.alloc (.vec n fun i => A.rnd (Real.log (x i)))) := by
  simp only [npLogOf, bind_apply, getObj_apply h, rbind_ok, hp, implies_true, if_true]
  rfl

/-! ### The object -/

/-- A `ProfitQOracle` in the state `o`: the object is at `l`, its `ProfitOracle` at `lo`. -/
structure QAt (l lo : ℕ) (st : St W) (o : ProfitQOracle) : Prop where
  obj : ∃ attrs ld, st.heap l = some (.inst "ProfitQOracle" attrs) ∧ attrs "omega" = some (.ref lo) ∧ attrs "xd" = some (.ref ld) ∧ (∀ a ∉ ["omega", "xd"], attrs a = none)
    ∧ st.heap ld = some (.vec 2 o.xd) ∧ ld < st.next
  omega : ProfitAt lo st o.omega
  lt : l < st.next

/-- Its locations. -/
def qOwn (l lo : ℕ) (st : St W) (k : ℕ) : Prop := k = l ∨ (∃ attrs, st.heap l = some (.inst "ProfitQOracle" attrs) ∧ attrs "xd" = some (.ref k)) ∨ profitOwn lo st k

/-- Those that it writes to. -/
def qWrites (l lo : ℕ) (_ : St W) (k : ℕ) : Prop := k = l ∨ k = lo

/-- What a call may change. -/
structure QMoves (l lo : ℕ) (st st' : St W) : Prop where
  frame : Frame (fun k => k = l ∨ k = lo) st st'
  own : ∀ k, qOwn l lo st' k → qOwn l lo st k ∨ st.next ≤ k

section

variable {l lo : ℕ} {o : ProfitQOracle}

theorem QMoves.refl (l lo : ℕ) (st : St W) : QMoves l lo st st := ⟨.refl _ _, fun _ h => .inl h⟩

theorem QMoves.trans {st' st'' : St W} (h : QMoves l lo st st') (h' : QMoves l lo st' st'') : QMoves l lo st st'' :=
  ⟨h.frame.trans h'.frame, fun k hk => (h'.own k hk).elim (h.own k) fun hk => .inr (h.frame.next.trans hk)⟩

theorem QMoves.moves {st' : St W} (h : QMoves l lo st st') : Moves (qOwn l lo) st st' :=
  ⟨⟨h.frame.next, fun k hk ho => h.frame.same k hk fun e => ho (e.elim .inl fun e => .inr (.inr (.inl e)))⟩, h.own⟩

theorem QMoves.writes {st' : St W} (h : QMoves l lo st st') : Moves (qWrites l lo) st st' :=
  ⟨⟨h.frame.next, h.frame.same⟩, fun _ h => .inl h⟩

theorem QAt.ne (h : QAt l lo st o) : l ≠ lo := by
  obtain ⟨attrs, ld, hl, -⟩ := h.obj
  obtain ⟨at', hl'⟩ := h.omega.class
  rintro rfl
  rw [hl] at hl'; simp at hl'

theorem QAt.alloc (h : QAt l lo st o) (ob : Obj) : QAt l lo (st.alloc ob) o ∧ QMoves l lo st (st.alloc ob) := by
  obtain ⟨attrs, ld, hl, h1, h2, h3, h4, h5⟩ := h.obj
  have hl' := (heap_alloc_ne h.lt.ne ob).trans hl
  refine ⟨⟨⟨attrs, ld, hl', h1, h2, h3, (heap_alloc_ne h5.ne ob).trans h4, h5.trans (Nat.lt_succ_self _)⟩, h.omega.alloc ob, h.lt.trans (Nat.lt_succ_self _)⟩, (Frame.refl (fun k => k = l ∨ k = lo) st).alloc ob, fun k hk => .inl ?_⟩
  rcases hk with rfl | ⟨at', h6, h7⟩ | hk
  · exact .inl rfl
  · exact .inr (.inl ⟨at', (heap_alloc_ne h.lt.ne ob).symm.trans h6, h7⟩)
  · refine .inr (.inr (hk.imp_right ?_))
    rintro ⟨at', a, h6, h7⟩
    exact ⟨at', a, (heap_alloc_ne h.omega.lt.ne ob).symm.trans h6, h7⟩

/-- Calls of methods of the inner oracle. -/
theorem QAt.step {st' : St W} {om : ProfitOracle} (h : QAt l lo st o) (hm : PMoves lo st st') (ho : ProfitAt lo st' om) : QAt l lo st' { o with omega := om } ∧ QMoves l lo st st' := by
  obtain ⟨attrs, ld, hl, h1, h2, h3, h4, h5⟩ := h.obj
  have hl' := (hm.frame.same l h.lt h.ne).trans hl
  have hd : ld ≠ lo := by
    obtain ⟨at', hlo⟩ := h.omega.class
    rintro rfl
    rw [h4] at hlo; simp at hlo
  refine ⟨⟨⟨attrs, ld, hl', h1, h2, h3, (hm.frame.same ld h5 hd).trans h4, h5.trans_le hm.frame.next⟩, ho, h.lt.trans_le hm.frame.next⟩, ⟨hm.frame.next, hm.frame.world, fun k hk hn => hm.frame.same k hk fun e => hn (.inr e)⟩, ?_⟩
  rintro k (rfl | ⟨at', h6, h7⟩ | hk)
  · exact .inl (.inl rfl)
  · rw [hl'] at h6
    exact .inl (.inr (.inl ⟨attrs, hl, by simp only [Option.some.injEq, Obj.inst.injEq, true_and] at h6; rwa [h6]⟩))
  · exact (hm.own k hk).imp_left fun h => .inr (.inr h)

theorem q_at (l lo : ℕ) : OracleAt (qOwn (W := W) l lo) (QAt l lo) where
  bound {st o} h k hk := by
    obtain ⟨attrs, ld, hl, h1, h2, h3, h4, h5⟩ := h.obj
    rcases hk with rfl | ⟨at', h6, h7⟩ | hk
    · exact h.lt
    · rw [hl] at h6
      simp only [Option.some.injEq, Obj.inst.injEq, true_and] at h6
      rw [← h6, h2] at h7
      simp at h7; omega
    · exact h.omega.bound k hk
  foreign {st o} h k hk cls attrs hh := by
    obtain ⟨attrs', ld, hl, h1, h2, h3, h4, h5⟩ := h.obj
    rcases hk with rfl | ⟨at', h6, h7⟩ | hk
    · rw [hl] at hh
      simp only [Option.some.injEq, Obj.inst.injEq] at hh
      rw [← hh.1]; decide
    · rw [hl] at h6
      simp only [Option.some.injEq, Obj.inst.injEq, true_and] at h6
      rw [← h6, h2] at h7
      simp at h7
      rw [← h7, h4] at hh; simp at hh
    · exact (profit_at lo).foreign h.omega k hk cls attrs hh
  stable {st st' o} h hf := by
    have hs : ∀ k, qOwn l lo st k → k < st.next → st'.heap k = st.heap k := fun k hk hlt => hf.same k hlt (not_not.mpr hk)
    obtain ⟨h1, h2⟩ := (profit_at lo).stable h.omega (st' := st') ⟨hf.next, hf.world, fun k hk ho => hf.same k hk fun hn => ho fun h => hn (.inr (.inr h))⟩
    obtain ⟨attrs, ld, hl, h3, h4, h5, h6, h7⟩ := h.obj
    have hl' := (hs l (.inl rfl) h.lt).trans hl
    refine ⟨⟨⟨attrs, ld, hl', h3, h4, h5, (hs ld (.inr (.inl ⟨attrs, hl, h4⟩)) h7).trans h6, h7.trans_le hf.next⟩, h1, h.lt.trans_le hf.next⟩, ?_⟩
    rintro k (rfl | ⟨at', h8, h9⟩ | hk)
    · exact .inl rfl
    · rw [hl'] at h8
      exact .inr (.inl ⟨attrs, hl, by simp only [Option.some.injEq, Obj.inst.injEq, true_and] at h8; rwa [h8]⟩)
    · exact .inr (.inr (h2 k hk))

/-! ### `assess_optim_q` -/

/-- The block of an `if`. -/
def thenBody : List PStmt → List PStmt
  | .ite _ b _ :: _ => b
  | _ => []

/-- `yd = np.round(np.exp(xc)); yd[yd == 0] = 1.0; self.xd = np.log(yd)`. -/
theorem q_round (hA : Literals A) (hS : KeepsSign A) {lx : ℕ} {x : Vec 2} {env : Env} (h : QAt l lo st o) (hx : st.heap lx = some (.vec 2 x)) (_ : lx < st.next)
    (h1 : env "self" = some (.ref l)) (h2 : env "xc" = some (.ref lx)) (h3 : env "np" = none) :
    ∃ st', execs (mach A ext) (call (mach A ext) (fuel + 1)) (List.drop 2 (thenBody Source.ProfitOracle.ProfitQOracle.assess_optim_q.body)) env st = .ok (.next (env.set "yd" (.ref (st.next + 1)))) st'
      ∧ QAt l lo st' { o with xd := fun i => A.rnd (Real.log (A.profitRound (x i))) } ∧ QMoves l lo st st' := by
  obtain ⟨attrs, ld, hl, h4, h5, h6, h7, h8⟩ := h.obj
  have hr : ∀ i, (if A.rnd (halfEven (A.rnd (Real.exp (x i))) : ℝ) = 0 then 1 else A.rnd (halfEven (A.rnd (Real.exp (x i))) : ℝ)) = A.profitRound (x i) := fun i => by
    rw [halfEven_eq]; rfl
  set r : Vec 2 := fun i => A.rnd (halfEven (A.rnd (Real.exp (x i))) : ℝ) with hr'
  set s1 := st.alloc (.vec 2 fun i => A.rnd (Real.exp (x i))) with hs1
  set s2 := s1.alloc (.vec 2 r) with hs2
  set s3 := s2.alloc (.mask 2 fun i => r i = 0) with hs3
  set s4 := s3.put s1.next (.vec 2 fun i => A.profitRound (x i)) with hs4
  set s5 := s4.alloc (.vec 2 fun i => A.rnd (Real.log (A.profitRound (x i)))) with hs5
  have n1 : s1.next = st.next + 1 := rfl
  have n2 : s2.next = st.next + 2 := rfl
  have n4 : s4.next = st.next + 3 := rfl
  have n5 : s5.next = st.next + 4 := rfl
  have hf : Frame (fun k => k = l ∨ k = lo) st s5 := (((((Frame.refl (fun k => k = l ∨ k = lo) st).alloc _).alloc _).alloc _).put _ (.inr (Nat.le_succ _))).alloc _
  have hs : ∀ k < st.next, s5.heap k = st.heap k := fun k hk =>
    (heap_alloc_ne (by omega) _).trans ((heap_put_ne (by omega) _).trans ((heap_alloc_ne (by omega) _).trans ((heap_alloc_ne (by omega) _).trans (heap_alloc_ne (by omega) _))))
  have g1 : s1.heap st.next = some (.vec 2 fun i => A.rnd (Real.exp (x i))) := heap_alloc_self _
  have g2 : s2.heap s1.next = some (.vec 2 r) := heap_alloc_self _
  have g3 : s3.heap s2.next = some (.mask 2 fun i => r i = 0) := heap_alloc_self _
  have g3' : s3.heap s1.next = some (.vec 2 r) := (heap_alloc_ne (by omega) _).trans g2
  have g4 : s4.heap s1.next = some (.vec 2 fun i => A.profitRound (x i)) := heap_put_self _ _
  have hset : setItem A (.ref s1.next) [.mask 2 fun i => r i = 0] (.num 1) s3 = .ok () s4 := by
    rw [set_mask g3', hs4]
    congr 4
    funext i
    convert hr i
  have g5 : s5.heap s4.next = some (.vec 2 fun i => A.rnd (Real.log (A.profitRound (x i)))) := heap_alloc_self _
  have g6 : s5.heap l = some (.inst "ProfitQOracle" attrs) := (hs l h.lt).trans hl
  have hll : lo < st.next := h.omega.lt
  have hltl := h.lt
  have hm : ProfitAt lo (s5.put l (.inst "ProfitQOracle" (attrs.set "xd" (.ref s4.next)))) o.omega := by
    refine h.omega.mono hf.next fun k hk => ?_
    have hkl : k ≠ l := by
      rintro rfl
      obtain ⟨at1, la, lp, lq, h9, ha, h10, h11, h12, -⟩ := h.omega.obj
      rcases hk with rfl | ⟨at', a, h13, h14, h15⟩
      · exact h.ne rfl
      · rw [h9] at h13
        simp only [Option.some.injEq, Obj.inst.injEq, true_and] at h13
        subst h13
        simp only [List.mem_cons, List.not_mem_nil, or_false] at h14
        rcases h14 with rfl | rfl | rfl
        · rw [ha.price] at h15; simp at h15; rw [h15, hl] at h11; simp at h11
        · rw [ha.el] at h15; simp at h15; rw [h15, hl] at h10; simp at h10
        · rw [ha.q] at h15
          obtain ⟨e, he, h16⟩ := Option.map_eq_some_iff.mp h15
          simp at h16
          rw [← h16] at hl
          rw [(h12 e he).1] at hl; simp at hl
    exact (heap_put_ne hkl _).trans (hs k (h.omega.bound k hk))
  refine ⟨s5.put l (.inst "ProfitQOracle" (attrs.set "xd" (.ref s4.next))), ?_, ⟨⟨_, s4.next, heap_put_self _ _, ?_, ?_, fun a ha => ?_, ?_, ?_⟩, hm, ?_⟩, hf.put _ (.inl (.inl rfl)), ?_⟩
  · simp only [thenBody, Source.ProfitOracle.ProfitQOracle.assess_optim_q, List.drop]
    simp only [py, h1, h2, h3, hx, ← hs1, g1, ← hr', ← hs2, g2]
    simp only [Int.cast_zero, ← hs3, toIdx_mask g3, py, hA.lit1, hset, h1, h3, npLog_ref g4 fun i => profitRound_pos hS (x i), ← hs5, g6]
    rfl
  · simpa only [py] using h4
  · simp only [py]
  · have := h6 a ha
    simp at ha
    simp only [py, ha, this]
  · rw [heap_put_ne (by omega), g5]
  · show s4.next < s5.next; omega
  · show l < s5.next; omega
  · rintro k (rfl | ⟨at', h9, h10⟩ | hk)
    · exact .inl (.inl rfl)
    · rw [heap_put_self] at h9
      simp only [Option.some.injEq, Obj.inst.injEq, true_and] at h9
      subst h9
      simp only [py, Option.some.injEq, Val.ref.injEq] at h10
      right; omega
    · refine .inl (.inr (.inr (hk.imp_right ?_)))
      rintro ⟨at', a, h9, h10⟩
      rw [heap_put_ne (Ne.symm h.ne), hs lo hll] at h9
      exact ⟨at', a, h9, h10⟩

/-- The outcome of `assess_optim_q`. -/
def QRes (l lo : ℕ) (st : St W) (r : ProfitQOracle × Except Fault (AnswerQ (Vec 2) (Vec 2 × ℝ) ℝ)) (res : Res W Val) : Prop :=
  match r with
  | (o1, .error f) => ∃ st', res = .exc (excOf f) st' ∧ QAt l lo st' o1 ∧ QMoves l lo st st'
  | (o1, .ok a) => ∃ st' k vq, res = .ok (.tuple [.tuple [.ref k, .num a.cut.2], vq, (a.gamma1.map Val.num).getD .none, .bool a.moreAlt]) st' ∧ QAt l lo st' o1 ∧ QMoves l lo st st'
      ∧ st'.heap k = some (.vec 2 a.cut.1) ∧ st.next ≤ k ∧ k < st'.next
      ∧ (a.gamma1 = none ∨ ∃ kd, vq = .ref kd ∧ (qOwn l lo st kd ∨ st.next ≤ kd) ∧ kd < st'.next ∧ st'.heap kd = some (.vec 2 a.xq))

theorem QRes.pre {st st' : St W} {r : ProfitQOracle × Except Fault (AnswerQ (Vec 2) (Vec 2 × ℝ) ℝ)} {res : Res W Val} (hm : QMoves l lo st st') (h : QRes l lo st' r res) : QRes l lo st r res := by
  rcases r with ⟨o1, f | a⟩
  · obtain ⟨s, h1, h2, h3⟩ := h
    exact ⟨s, h1, h2, hm.trans h3⟩
  · obtain ⟨s, k, vq, h1, h2, h3, h4, h5, h6, h7⟩ := h
    refine ⟨s, k, vq, h1, h2, hm.trans h3, h4, hm.frame.next.trans h5, h6, h7.imp_right ?_⟩
    rintro ⟨kd, h8, h9, h10⟩
    exact ⟨kd, h8, h9.elim (hm.own kd) fun h => .inr (hm.frame.next.trans h), h10⟩

/-- The check of the discrete point. -/
theorem q_discrete (hA : Literals A) {lx : ℕ} {x : Vec 2} {vg : Val} {g : ℝ} {b : Bool} {env : Env} (h : QAt l lo st o) (hx : st.heap lx = some (.vec 2 x)) (hlx : lx < st.next) (hg : vg.toFloat A = some g)
    (h1 : env "self" = some (.ref l)) (h2 : env "xc" = some (.ref lx)) (h3 : env "gamma" = some vg) (h4 : env "retry" = some (.bool b)) :
    QRes l lo st (A.profitDiscrete o x g b) ((execs (mach A ext) (call (mach A ext) (fuel + 4)) (List.drop 1 Source.ProfitOracle.ProfitQOracle.assess_optim_q.body) env st).bind result) := by
  obtain ⟨attrs, ld, hl, h5, h6, h7, h8, h9⟩ := h.obj
  obtain ⟨ato, la1, lp1, lq1, hlo, hao, -⟩ := h.omega.obj
  have hac := hao.only "assess_optim" (by decide)
  have hp := profit_optim (A := A) (ext := ext) (fuel := fuel) hA h.omega h8 h9 hg
  have hc : ∀ env : Env, env "self" = some (.ref l) → env "gamma" = some vg → eval (mach A ext) (call (mach A ext) (fuel + 4)) env (.call (.attr (.attr (.name "self") "omega") "assess_optim") [.attr (.name "self") "xd", .name "gamma"]) st
      = call (mach A ext) (fuel + 4) (.meth (.ref lo) "assess_optim") [.ref ld, vg] st := fun env h1 h3 => by
    simp only [py, h1, h3, hl, h5, h6, hlo, hac]
  simp only [Arith.profitDiscrete]
  simp only [Source.ProfitOracle.ProfitQOracle.assess_optim_q, List.drop]
  rw [execs_cons, exec_assign, hc env h1 h3]
  revert hp
  generalize call (mach A ext) (fuel + 4) _ _ _ = R
  intro hp
  rcases hr : A.profitOptim o.omega o.xd g with ⟨o1, f | ⟨c, g1⟩⟩ <;> rw [hr] at hp
  · obtain ⟨s, h10, h11, h12⟩ := hp
    subst h10
    exact ⟨s, rfl, h.step h12 h11⟩
  · obtain ⟨s, k, h10, h11, h12, h13, h14, h15⟩ := hp
    subst h10
    obtain ⟨h16, h17⟩ := h.step h12 h11
    have hls := (h12.frame.same l h.lt h.ne).trans hl
    obtain ⟨at', hlo'⟩ := h.omega.class
    have hds := (h12.frame.same ld h9 (by rintro rfl; rw [h8] at hlo'; simp at hlo')).trans h8
    have hxs := (h12.frame.same lx hlx (h.omega.ne hx)).trans hx
    have hn := h12.frame.next
    have hls' := h.lt
    obtain ⟨h18, h19⟩ := h16.alloc (.vec 2 fun i => A.sub (o.xd i) (x i))
    refine ⟨s.alloc (.vec 2 fun i => A.sub (o.xd i) (x i)), k, .ref ld, ?_, h18, h17.trans h19, (heap_alloc_ne h15.ne _).trans h13, h14, h15.trans (Nat.lt_succ_self _),
      .inr ⟨ld, rfl, .inl (.inr (.inl ⟨attrs, hl, h6⟩)), (h9.trans_le hn).trans (Nat.lt_succ_self _), (heap_alloc_ne (h9.trans_le hn).ne _).trans hds⟩⟩
    have e1 : (l = s.next) = False := by simp; omega
    have e2 : (k = s.next) = False := by simp; omega
    simp only [py, h1, h2, h4, hls, h6, hds, hxs, h13, e1, e2]

/-- `assess_optim_q`. -/
theorem q_optim (hA : Literals A) (hS : KeepsSign A) {lx : ℕ} {x : Vec 2} {vg : Val} {g : ℝ} {b : Bool} (h : QAt l lo st o) (hx : st.heap lx = some (.vec 2 x)) (hlx : lx < st.next) (hg : vg.toFloat A = some g) :
    QRes l lo st (A.profitQOptim o x g b) (call (mach A ext) (fuel + 5) (.meth (.ref l) "assess_optim_q") [.ref lx, vg, .bool b] st) := by
  obtain ⟨attrs, ld, hl, h5, h6, h7, h8, h9⟩ := h.obj
  rw [call_meth hl method_ProfitQOracle_assess_optim_q rfl, Arith.profitQOptim]
  set env0 := (((Env.empty.set "self" (.ref l)).set "xc" (.ref lx)).set "gamma" vg).set "retry" (.bool b) with henv
  have e1 : env0 "self" = some (.ref l) := by simp only [henv, py]
  have e2 : env0 "xc" = some (.ref lx) := by simp only [henv, py]
  have e3 : env0 "gamma" = some vg := by simp only [henv, py]
  have e4 : env0 "retry" = some (.bool b) := by simp only [henv, py]
  have e5 : env0 "np" = none := by simp only [henv, py]
  have hb : runBody (mach A ext) (call (mach A ext) (fuel + 4)) Source.ProfitOracle.ProfitQOracle.assess_optim_q.params Source.ProfitOracle.ProfitQOracle.assess_optim_q.body [.ref l, .ref lx, vg, .bool b] Env.empty st
      = (((if b then M.pure (.next env0) else execs (mach A ext) (call (mach A ext) (fuel + 4)) (thenBody Source.ProfitOracle.ProfitQOracle.assess_optim_q.body) env0) st).bind
        (after (mach A ext) (call (mach A ext) (fuel + 4)) (List.drop 1 Source.ProfitOracle.ProfitQOracle.assess_optim_q.body))).bind result := by
    simp only [Source.ProfitOracle.ProfitQOracle.assess_optim_q, runBody_cons, runBody_nil, ← henv, thenBody, List.drop]
    rw [execs_cons, exec_ite]
    cases b <;> simp only [eval_not, eval_name, e4, readVar_some, rbind_ok, bind_apply, pure_apply, truthy_bool, Bool.not_true, Bool.not_false, if_true, if_false, execs_nil, Bool.false_eq_true, ite_true, ite_false, M.pure]
  rw [hb]
  cases b with
  | true => exact q_discrete hA h hx hlx hg e1 e2 e3 e4
  | false =>
    simp only [Bool.false_eq_true, if_false]
    obtain ⟨ato, la1, lp1, lq1, hlo, hao, -⟩ := h.omega.obj
    have hac := hao.only "assess_feas" (by decide)
    have hp := profit_feas (A := A) (ext := ext) (fuel := fuel + 1) hA h.omega hx hlx hg
    have hc : eval (mach A ext) (call (mach A ext) (fuel + 4)) env0 (.call (.attr (.attr (.name "self") "omega") "assess_feas") [.name "xc", .name "gamma"]) st
        = call (mach A ext) (fuel + 4) (.meth (.ref lo) "assess_feas") [.ref lx, vg] st := by
      simp only [py, e1, e2, e3, hl, h5, hlo, hac]
    have hd1 : ∀ (st' : St W), execs (mach A ext) (call (mach A ext) (fuel + 4)) (List.drop 1 (thenBody Source.ProfitOracle.ProfitQOracle.assess_optim_q.body)) (env0.set "cut" .none) st'
        = execs (mach A ext) (call (mach A ext) (fuel + 4)) (List.drop 2 (thenBody Source.ProfitOracle.ProfitQOracle.assess_optim_q.body)) (env0.set "cut" .none) st' := by
      intro st'
      simp only [thenBody, Source.ProfitOracle.ProfitQOracle.assess_optim_q, List.drop]
      generalize PStmt.assign (.name "yd") _ :: _ = R
      simp only [py]
    have hd2 : ∀ (st' : St W) (k : ℕ) (y : ℝ), execs (mach A ext) (call (mach A ext) (fuel + 4)) (List.drop 1 (thenBody Source.ProfitOracle.ProfitQOracle.assess_optim_q.body)) (env0.set "cut" (.tuple [.ref k, .num y])) st'
        = .ok (.ret (.tuple [.tuple [.ref k, .num y], .ref lx, .none, .bool true])) st' := by
      intro st' k y
      simp only [thenBody, Source.ProfitOracle.ProfitQOracle.assess_optim_q, List.drop]
      generalize PStmt.assign (.name "yd") _ :: _ = R
      simp only [py, e2, List.isEmpty]
    have hT : thenBody Source.ProfitOracle.ProfitQOracle.assess_optim_q.body
        = .assign (.name "cut") (.call (.attr (.attr (.name "self") "omega") "assess_feas") [.name "xc", .name "gamma"]) :: List.drop 1 (thenBody Source.ProfitOracle.ProfitQOracle.assess_optim_q.body) := rfl
    rw [hT, execs_cons, exec_assign, hc]
    revert hp
    generalize call (mach A ext) (fuel + 4) (.meth (.ref lo) "assess_feas") _ _ = R
    intro hp
    rcases hr : A.profitFeas o.omega x g with ⟨o1, f | _ | c⟩ <;> rw [hr] at hp
    · obtain ⟨s, h10, h11, h12⟩ := hp
      subst h10
      exact ⟨s, rfl, h.step h12 h11⟩
    · obtain ⟨s, h10, h11, h12⟩ := hp
      subst h10
      obtain ⟨h13, h14⟩ := h.step h12 h11
      have hxs := (h12.frame.same lx hlx (h.omega.ne hx)).trans hx
      have hls := hlx.trans_le h12.frame.next
      have hxl : lx ≠ l := by rintro rfl; rw [hx] at hl; simp at hl
      obtain ⟨s', h15, h16, h17⟩ := q_round (A := A) (ext := ext) (fuel := fuel + 3) (env := env0.set "cut" .none) hA hS h13 hxs hls (by simpa only [py] using e1) (by simpa only [py] using e2) (by simpa only [py] using e5)
      have hxs' := (h17.frame.same lx hls (by rintro (rfl | rfl); exacts [hxl rfl, h.omega.ne hx rfl])).trans hxs
      refine QRes.pre (h14.trans h17) ?_
      rw [rbind_ok, bind_apply, assign_name, rbind_ok, pure_apply, rbind_ok, after_next, hd1, h15, rbind_ok, after_next]
      exact q_discrete (b := false) hA h16 hxs' (hls.trans_le h17.frame.next) hg (by simpa only [py] using e1) (by simpa only [py] using e2) (by simpa only [py] using e3) (by simpa only [py] using e4)
    · obtain ⟨s, k, h10, h11, h12, h13⟩ := hp
      subst h10
      obtain ⟨h14, h15⟩ := h.step h12 h11
      refine ⟨s, k, .ref lx, ?_, h14, h15, h13.1, h13.2.1, h13.2.2, .inl rfl⟩
      rw [rbind_ok, bind_apply, assign_name, rbind_ok, pure_apply, rbind_ok, after_next, hd2]
      rfl

end

/-! ### As an oracle of the loops -/

/-- `ProfitQOracle.assess_optim_q` as the oracle of `cutting_plane_optim_q`. -/
noncomputable def _root_.Ellalgo.Arith.profitQOracle (A : Arith) : OracleOptimQ ProfitQOracle (Vec 2) (Cut 2) ℝ := fun o x γ r =>
  ((A.profitQOptim o x γ r).1, (A.profitQOptim o x γ r).2.map fun a => ⟨(a.cut.1, CutChoice.scalar a.cut.2), a.xq, a.gamma1, a.moreAlt⟩)

/-- `ProfitQOracle` meets the contract for `assess_optim_q`. -/
theorem q_oracle {free : Prop} (hA : Literals A) (hS : KeepsSign A) (l lo : ℕ) : OptimQOracle A ext (fuel + 5) (.ref l) (qOwn (W := W) l lo) (qWrites l lo) A.profitQOracle (IsTarget A) (QAt l lo) free where
  toOracleAt := q_at l lo
  keep _ _ _ h := h
  has {st o} h := by
    obtain ⟨attrs, ld, hl, -, -, hr, -⟩ := h.obj
    have := hr "assess_optim_q" (by decide)
    intro cl
    simp only [py, hl, this]
  num h := h.isNone
  assess {st o lx x g vg b} h hx hlx hg := by
    have := q_optim (A := A) (ext := ext) (fuel := fuel) (b := b) hA hS h hx hlx hg
    simp only [Arith.profitQOracle]
    rcases hr : A.profitQOptim o x g b with ⟨o1, f | a⟩ <;> rw [hr] at this
    · obtain ⟨s, h1, h2, h3⟩ := this
      exact ⟨s, h1, h2, h3.moves, h3.writes⟩
    · obtain ⟨s, k, vq, h1, h2, h3, h4, h5, h6, h7⟩ := this
      refine ⟨_, vq, _, _, s, h1, h2, h3.moves, h3.writes, isCut_new h4 h6, .inr (ownCut_new h5), nofun, fun _ => rfl, ?_⟩
      cases hg : a.gamma1 with
      | none => rfl
      | some g1 =>
        rw [hg] at h7
        obtain ⟨kd, h8, h9, h10, h11⟩ := h7.resolve_left nofun
        refine ⟨rfl, kd, h8, h9, h10, h11, ?_⟩
        obtain ⟨attrs, ld, hl, -⟩ := h2.obj
        obtain ⟨at', hlo⟩ := h2.omega.class
        rintro (rfl | rfl)
        · rw [hl] at h11; simp at h11
        · rw [hlo] at h11; simp at h11

/-- `ProfitQOracle((unit_price, scale, limit), elasticities, price_out)`. -/
theorem q_init (hA : Literals A) {la lp : ℕ} {a v : Vec 2} (hla : st.heap la = some (.vec 2 a)) (hlp : st.heap lp = some (.vec 2 v)) (h1 : la < st.next) (h2 : lp < st.next) (p s k : ℝ) :
    match A.profitQInit p s k a v with
    | .error f => ∃ st', call (mach A ext) (fuel + 3) (.glob "ProfitQOracle") [.tuple [.num p, .num s, .num k], .ref la, .ref lp] st = .exc (excOf f) st' ∧ Frame (fun _ => False) st st'
    | .ok o => ∃ st' lo, call (mach A ext) (fuel + 3) (.glob "ProfitQOracle") [.tuple [.num p, .num s, .num k], .ref la, .ref lp] st = .ok (.ref st.next) st'
        ∧ QAt st.next lo st' o ∧ Frame (fun _ => False) st st' ∧ ∀ j, qOwn st.next lo st' j → j = la ∨ j = lp ∨ st.next ≤ j := by
  set s1 := st.alloc (.inst "ProfitQOracle" Env.empty) with hs1
  have hf1 : Frame (fun _ => False) st s1 := (Frame.refl (fun _ => False) st).alloc _
  have n1 : s1.next = st.next + 1 := rfl
  have hi := profit_init (A := A) (ext := ext) (fuel := fuel) (st := s1) ((hf1.same la h1 not_false).trans hla) ((hf1.same lp h2 not_false).trans hlp) (h1.trans_le hf1.next) (h2.trans_le hf1.next) p s k
  rw [call_class (k := Source.ProfitOracle.ProfitQOracle) (f := Source.ProfitOracle.ProfitQOracle.__init__) rfl rfl rfl rfl]
  simp only [Source.ProfitOracle.ProfitQOracle.__init__]
  simp only [py, ← hs1]
  revert hi
  generalize call (mach A ext) (fuel + 2) (.glob "ProfitOracle") _ _ = R
  intro hi
  simp only [Arith.profitQInit]
  cases hr : A.profitInit p s k a v with
  | error f =>
    rw [hr] at hi
    obtain ⟨s4, h4, h5⟩ := hi
    subst h4
    exact ⟨s4, rfl, hf1.trans h5⟩
  | ok o =>
    rw [hr] at hi
    obtain ⟨s4, h4, h5, h6, h7⟩ := hi
    subst h4
    have hl4 : s4.heap st.next = some (.inst "ProfitQOracle" Env.empty) := (h6.same _ (by omega) not_false).trans (heap_alloc_self _)
    have hlt4 := h5.lt
    have e1 : (st.next = s4.next) = False := by simp; omega
    simp only [py, hl4, hA.lit0, array_two, e1]
    refine ⟨_, s1.next, rfl, ⟨⟨_, s4.next, heap_put_self _ _, ?_, ?_, fun b hb => ?_, ?_, ?_⟩, ?_, ?_⟩, ?_, ?_⟩
    · simp only [py]
    · simp only [py]
    · simp only [List.mem_cons, List.not_mem_nil, or_false, not_or] at hb
      simp only [py, hb]
    · rw [heap_put_ne (by omega)]; exact heap_alloc_self _
    · exact Nat.lt_succ_self _
    · refine h5.mono (Nat.le_succ _) fun j hj => ?_
      have hj' := h5.bound j hj
      have hj1 : j ≠ st.next := by rcases h7 j hj with rfl | rfl | rfl <;> omega
      rw [heap_put_ne hj1, heap_alloc_ne (by show j ≠ s4.next; omega), heap_put_ne hj1]
    · show st.next < s4.next + 1; omega
    · exact (((hf1.trans h6).put _ (.inr le_rfl)).alloc _).put _ (.inr le_rfl)
    · rintro j (rfl | ⟨at', h8, h9⟩ | hj)
      · exact .inr (.inr le_rfl)
      · rw [heap_put_self] at h8
        simp only [Option.some.injEq, Obj.inst.injEq, true_and] at h8
        subst h8
        simp only [py, Option.some.injEq, Val.ref.injEq] at h9
        right; right; omega
      · have hj' : profitOwn s1.next s4 j := by
          refine hj.imp_right ?_
          rintro ⟨at', b, h8, h9⟩
          rw [heap_put_ne (by omega), heap_alloc_ne (by show s1.next ≠ s4.next; omega), heap_put_ne (by omega)] at h8
          exact ⟨at', b, h8, h9⟩
        rcases h7 j hj' with rfl | rfl | rfl
        · right; right; omega
        · exact .inl rfl
        · exact .inr (.inl rfl)

end Ellalgo.Py
