import Verif.Py.Lists
import Verif.Py.Refine.Runs
import Verif.Model.RoundedProfit

/-!
# The text of `profit_oracle.py`, `ProfitOracle`, computes what `Model/RoundedProfit` says
-/

set_option linter.unusedSimpArgs false

namespace Ellalgo.Py

open CuttingPlane

variable {W : Type} {A : Arith} {ext : ℕ → String → List Val → M W Val} {fuel : ℕ} {st : St W}

/-! ### Functions on arrays and numbers -/

/-- A function applied to what was found on the heap. -/
noncomputable def mapArr (f : ℝ → ℝ) (o : Option Obj) : M W Val :=
  match o with
  | some (.vec n x) => allocObj (.vec n fun i => f (x i))
  | some (.mat r c x) => allocObj (.mat r c fun i j => f (x i j))
  | _ => M.stuck

@[py] theorem mapNum_ref (f : ℝ → ℝ) (l : ℕ) : mapNum A f (.ref l) st = mapArr f (st.heap l) st := by
  simp only [mapNum, bind_apply, getObj_eq]
  cases st.heap l with
  | none => rfl
  | some o => cases o <;> rfl
@[py] theorem mapArr_vec (f : ℝ → ℝ) (n : ℕ) (x : Fin n → ℝ) : mapArr f (some (.vec n x)) st = .ok (.ref st.next) (st.alloc (.vec n fun i => f (x i))) := rfl
@[py] theorem mapArr_mat (f : ℝ → ℝ) (r c : ℕ) (x : Fin r → Fin c → ℝ) : mapArr f (some (.mat r c x)) st = .ok (.ref st.next) (st.alloc (.mat r c fun i j => f (x i j))) := rfl
@[py] theorem mapNum_num (f : ℝ → ℝ) (x : ℝ) : mapNum A f (.num x) st = .ok (.num (f x)) st := rfl
@[py] theorem logOf_num (x : ℝ) : logOf A (.num x) st = if x ≤ 0 then .exc "ValueError" st else .ok (.num (A.rnd (Real.log x))) st := by
  simp only [logOf, Val.toFloat]; split <;> rfl

/-- `np.exp` of what was found on the heap. -/
noncomputable def expArr (A : Arith) (o : Option Obj) : M W Val :=
  match o with
  | some (.cvec n x) => allocObj (.cvec n fun i => crnd A (Complex.exp (x i)))
  | o => mapArr (fun x => A.rnd (Real.exp x)) o

@[py] theorem expOf_ref (l : ℕ) : expOf A (.ref l) st = expArr A (st.heap l) st := by
  simp only [expOf, bind_apply, getObj_eq]
  cases h : st.heap l with
  | none => rfl
  | some o => cases o <;> first | rfl | (simp only [readObj_some, rbind_ok, mapNum_ref, h]; rfl)
@[py] theorem expArr_vec (n : ℕ) (x : Fin n → ℝ) : expArr A (some (.vec n x)) st = .ok (.ref st.next) (st.alloc (.vec n fun i => A.rnd (Real.exp (x i)))) := rfl
@[py] theorem expArr_cvec (n : ℕ) (x : Fin n → ℂ) : expArr A (some (.cvec n x)) st = .ok (.ref st.next) (st.alloc (.cvec n fun i => crnd A (Complex.exp (x i)))) := rfl
@[py] theorem expOf_num (x : ℝ) : expOf A (.num x) st = .ok (.num (A.rnd (Real.exp x))) st := rfl

theorem cmp_gt_lit (x : ℝ) : cmpOp .gt (.num x) (.int 0) st = .ok (.bool (decide (x > 0))) st := by
  have : Val.toReal (.int 0) = some 0 := by simp [Val.toReal]
  simp only [cmpOp, toReal_num, this, ordOp]; rfl

theorem item_zero {l : ℕ} {x : Vec 2} (h : st.heap l = some (.vec 2 x)) : getItem (.ref l) [.pos 0] st = .ok (.num (x 0)) st := item_vec h 0
theorem item_one {l : ℕ} {x : Vec 2} (h : st.heap l = some (.vec 2 x)) : getItem (.ref l) [.pos 1] st = .ok (.num (x 1)) st := item_vec h 1

theorem array_two (a b : ℝ) : builtin A "np.array" [.list [.num a, .num b]] st = .ok (.ref st.next) (st.alloc (.vec 2 ![a, b])) := by
  have := builtin_array (A := A) (st := st) ![a, b]
  simpa [List.ofFn_succ] using this

theorem set_set (env : Env) (x : String) (v w : Val) : (env.set x v).set x w = env.set x w := by
  funext y
  simp only [Env.set]
  split <;> rfl

/-! ### The object -/

/-- The attributes of a `ProfitOracle` at `l`, with the arrays at `la`, `lp` and `lq`. -/
structure IsProfit (l la lp lq : ℕ) (o : ProfitOracle) (attrs : Env) : Prop where
  idx : (attrs "idx").getD (.int (-1)) = .int o.idx
  logPA : attrs "log_pA" = some (.num o.logPA)
  logK : attrs "log_k" = some (.num o.logK)
  price : attrs "price_out" = some (.ref lp)
  el : attrs "elasticities" = some (.ref la)
  fns : attrs "fns" = some (.tuple [.meth (.ref l) "fn1", .meth (.ref l) "fn2"])
  grads : attrs "grads" = some (.tuple [.meth (.ref l) "grad1", .meth (.ref l) "grad2"])
  cobb : attrs "log_Cobb" = o.last.map fun e => .num e.logCobb
  q : attrs "q" = o.last.map fun _ => .ref lq
  vy : attrs "vy" = o.last.map fun e => .num e.vy
  only : ∀ a ∉ ["idx", "log_pA", "log_k", "price_out", "elasticities", "fns", "grads", "log_Cobb", "q", "vy"], attrs a = none

/-- A `ProfitOracle` in the state `o`. -/
structure ProfitAt (l : ℕ) (st : St W) (o : ProfitOracle) : Prop where
  obj : ∃ attrs la lp lq, st.heap l = some (.inst "ProfitOracle" attrs) ∧ IsProfit l la lp lq o attrs ∧ st.heap la = some (.vec 2 o.elasticities) ∧ st.heap lp = some (.vec 2 o.priceOut)
    ∧ (∀ e, o.last = some e → st.heap lq = some (.vec 2 e.q) ∧ lq < st.next) ∧ la < st.next ∧ lp < st.next
  lt : l < st.next
  idx : o.idx = -1 ∨ o.idx = 0 ∨ o.idx = 1

/-- The locations of a `ProfitOracle`: the object and its arrays. -/
def profitOwn (l : ℕ) (st : St W) (k : ℕ) : Prop :=
  k = l ∨ ∃ attrs a, st.heap l = some (.inst "ProfitOracle" attrs) ∧ a ∈ ["price_out", "elasticities", "q"] ∧ attrs a = some (.ref k)

/-- What a call of a method may change: the object is written, new arrays are made. -/
structure PMoves (l : ℕ) (st st' : St W) : Prop where
  frame : Frame (· = l) st st'
  own : ∀ k, profitOwn l st' k → profitOwn l st k ∨ st.next ≤ k

theorem PMoves.refl (l : ℕ) (st : St W) : PMoves l st st := ⟨.refl _ _, fun _ h => .inl h⟩

theorem PMoves.trans {l : ℕ} {st st' st'' : St W} (h : PMoves l st st') (h' : PMoves l st' st'') : PMoves l st st'' :=
  ⟨h.frame.trans h'.frame, fun k hk => (h'.own k hk).elim (h.own k) fun hk => .inr (h.frame.next.trans hk)⟩

theorem PMoves.alloc {l : ℕ} {st st' : St W} (h : PMoves l st st') (hl : l < st'.next) (o : Obj) : PMoves l st (st'.alloc o) := by
  refine ⟨h.frame.alloc o, fun k hk => h.own k (hk.imp_right ?_)⟩
  rintro ⟨attrs, a, h1, h2⟩
  exact ⟨attrs, a, (heap_alloc_ne hl.ne o).symm.trans h1, h2⟩

theorem PMoves.moves {l : ℕ} {st st' : St W} (h : PMoves l st st') : Moves (profitOwn l) st st' :=
  ⟨⟨h.frame.next, fun k hk ho => h.frame.same k hk fun e => ho (.inl e)⟩, h.own⟩

theorem ProfitAt.mono {l : ℕ} {st st' : St W} {o : ProfitOracle} (h : ProfitAt l st o) (hn : st.next ≤ st'.next) (hs : ∀ k, profitOwn l st k → st'.heap k = st.heap k) : ProfitAt l st' o := by
  obtain ⟨⟨attrs, la, lp, lq, hl, ha, hla, hlp, hlq, h1, h2⟩, hlt, hi⟩ := h
  refine ⟨⟨attrs, la, lp, lq, (hs l (.inl rfl)).trans hl, ha, (hs la (.inr ⟨attrs, "elasticities", hl, by simp, ha.el⟩)).trans hla, (hs lp (.inr ⟨attrs, "price_out", hl, by simp, ha.price⟩)).trans hlp, fun e he => ?_, h1.trans_le hn, h2.trans_le hn⟩, hlt.trans_le hn, hi⟩
  exact ⟨(hs lq (.inr ⟨attrs, "q", hl, by simp, by rw [ha.q, he]; rfl⟩)).trans (hlq e he).1, (hlq e he).2.trans_le hn⟩

theorem ProfitAt.bound {l : ℕ} {st : St W} {o : ProfitOracle} (h : ProfitAt l st o) (k : ℕ) (hk : profitOwn l st k) : k < st.next := by
  obtain ⟨⟨attrs, la, lp, lq, hl, ha, hla, hlp, hlq, h1, h2⟩, hlt, hi⟩ := h
  rcases hk with rfl | ⟨attrs', a, h3, h4, h5⟩
  · exact hlt
  · obtain rfl : attrs = attrs' := by rw [hl] at h3; simpa using h3
    simp only [List.mem_cons, List.not_mem_nil, or_false] at h4
    rcases h4 with rfl | rfl | rfl
    · rw [ha.price] at h5; simp at h5; omega
    · rw [ha.el] at h5; simp at h5; omega
    · rw [ha.q] at h5
      obtain ⟨e, he, h6⟩ := Option.map_eq_some_iff.mp h5
      simp at h6
      have := (hlq e he).2
      omega

theorem ProfitAt.alloc {l : ℕ} {st : St W} {o : ProfitOracle} (h : ProfitAt l st o) (ob : Obj) : ProfitAt l (st.alloc ob) o :=
  h.mono (Nat.le_succ _) fun k hk => heap_alloc_ne (h.bound k hk).ne ob

theorem profit_at (l : ℕ) : OracleAt (profitOwn (W := W) l) (ProfitAt l) where
  bound h := h.bound
  foreign {st o} h k hk cls attrs hh := by
    obtain ⟨⟨attrs0, la, lp, lq, hl, ha, hla, hlp, hlq, h1, h2⟩, hlt, hi⟩ := h
    rcases hk with rfl | ⟨attrs', a, h3, h4, h5⟩
    · rw [hl] at hh; simp only [Option.some.injEq, Obj.inst.injEq] at hh; rw [← hh.1]; decide
    · obtain rfl : attrs0 = attrs' := by rw [hl] at h3; simpa using h3
      simp only [List.mem_cons, List.not_mem_nil, or_false] at h4
      rcases h4 with rfl | rfl | rfl
      · rw [ha.price] at h5; simp at h5; subst h5; rw [hlp] at hh; simp at hh
      · rw [ha.el] at h5; simp at h5; subst h5; rw [hla] at hh; simp at hh
      · rw [ha.q] at h5
        obtain ⟨e, he, h6⟩ := Option.map_eq_some_iff.mp h5
        simp at h6; subst h6; rw [(hlq e he).1] at hh; simp at hh
  stable {st st' o} h hf := by
    have hs : ∀ k, profitOwn l st k → st'.heap k = st.heap k := fun k hk => hf.same k (h.bound k hk) (not_not.mpr hk)
    refine ⟨h.mono hf.next hs, fun k hk => hk.imp_right ?_⟩
    rintro ⟨attrs, a, h1, h2⟩
    exact ⟨attrs, a, (hs l (.inl rfl)).symm.trans h1, h2⟩

/-- An array with a point is not the object. -/
theorem ProfitAt.ne {l lx : ℕ} {st : St W} {o : ProfitOracle} {n : ℕ} {x : Vec n} (h : ProfitAt l st o) (hx : st.heap lx = some (.vec n x)) : lx ≠ l := by
  rintro rfl
  obtain ⟨attrs, la, lp, lq, hl, -⟩ := h.obj
  rw [hl] at hx; simp at hx

/-! ### Constraints and gradients -/

section

variable {l lx : ℕ} {o : ProfitOracle} {x : Vec 2} {vg : Val} {g : ℝ}

theorem profit_fn1 (h : ProfitAt l st o) (hx : st.heap lx = some (.vec 2 x)) : call (mach A ext) (fuel + 1) (.meth (.ref l) "fn1") [.ref lx, vg] st = .ok (.num (A.profitFn1 o x)) st := by
  obtain ⟨attrs, la, lp, lq, hl, ha, -⟩ := h.obj
  rw [call_meth hl method_ProfitOracle_fn1 rfl]
  simp only [Source.ProfitOracle.ProfitOracle.fn1]
  simp only [py, hl, ha.logK, item_zero hx]
  rfl

theorem profit_grad1 (hA : Literals A) (h : ProfitAt l st o) : call (mach A ext) (fuel + 2) (.meth (.ref l) "grad1") [vg] st = .ok (.ref st.next) (st.alloc (.vec 2 ![1, 0])) := by
  obtain ⟨attrs, la, lp, lq, hl, ha, -⟩ := h.obj
  rw [call_meth hl method_ProfitOracle_grad1 rfl]
  simp only [Source.ProfitOracle.ProfitOracle.grad1]
  simp only [py, hA.lit0, hA.lit1, array_two]

/-- `fn2` without its last line: the three attributes are set. -/
theorem profit_fn2 (h : ProfitAt l st o) (hx : st.heap lx = some (.vec 2 x)) (hg : vg.toFloat A = some g) :
    ∃ st', call (mach A ext) (fuel + 2) (.meth (.ref l) "fn2") [.ref lx, vg] st = outcome (fun y => .num y) (A.profitFn2 o x g).2 st' ∧ ProfitAt l st' (A.profitFn2 o x g).1 ∧ PMoves l st st' := by
  have hne := h.ne hx
  obtain ⟨⟨attrs, la, lp, lq, hl, ha, hla, hlp, hlq, h1, h2⟩, hlt, hi⟩ := h
  have hal : (la = l) = False := by simp; rintro rfl; rw [hl] at hla; simp at hla
  have hpl : (lp = l) = False := by simp; rintro rfl; rw [hl] at hlp; simp at hlp
  have hnl : (st.next = l) = False := by simp; omega
  have hnl1 : (st.next + 1 = l) = False := by simp; omega
  have hxl : (lx = l) = False := by simpa using hne
  set e := A.profitEval o x with he
  set at2 : Env := (attrs.set "log_Cobb" (.num e.logCobb)).set "q" (.ref (st.next + 1)) with hat2
  set s3 : St W := (((st.put l (.inst "ProfitOracle" (attrs.set "log_Cobb" (.num e.logCobb)))).alloc (.vec 2 fun i => A.rnd (Real.exp (x i)))).alloc (.vec 2 e.q)).put l (.inst "ProfitOracle" at2) with hs3
  have h3q : s3.heap (st.next + 1) = some (.vec 2 e.q) := by simp only [hs3, py, hnl1]
  have i0 := item_zero h3q
  have i1 := item_one h3q
  have h3l : s3.heap l = some (.inst "ProfitOracle" at2) := by simp only [hs3, py]
  have h3a : s3.heap la = some (.vec 2 o.elasticities) := by simp only [hs3, py, hal, lt_ne h1, lt_ne_add h1, hla]
  have h3p : s3.heap lp = some (.vec 2 o.priceOut) := by simp only [hs3, py, hpl, lt_ne h2, lt_ne_add h2, hlp]
  have h3n : s3.next = st.next + 2 := rfl
  have hf3 : Frame (· = l) st s3 := ((((Frame.refl (· = l) st).put _ (.inl rfl)).alloc _).alloc _).put _ (.inl rfl)
  have hat : at2 "q" = some (.ref (st.next + 1)) := by simp only [hat2, py]
  have hc2 : at2 "log_Cobb" = some (.num e.logCobb) := by simp only [hat2, py]
  have hend : ProfitAt l (s3.put l (.inst "ProfitOracle" (at2.set "vy" (.num e.vy)))) (A.profitFn2 o x g).1 := by
    refine ⟨⟨_, la, lp, st.next + 1, heap_put_self _ _, ⟨?_, ?_, ?_, ?_, ?_, ?_, ?_, ?_, ?_, ?_, fun a ha' => ?_⟩, ?_, ?_, fun e' he' => ⟨?_, ?_⟩, ?_, ?_⟩, ?_, hi⟩
    · simp only [hat2, py]; exact ha.idx
    · exact (by simp only [hat2, py] : _ = _).trans ha.logPA
    · exact (by simp only [hat2, py] : _ = _).trans ha.logK
    · simpa only [hat2, py] using ha.price
    · simpa only [hat2, py] using ha.el
    · simpa only [hat2, py] using ha.fns
    · simpa only [hat2, py] using ha.grads
    · simp only [hat2, py, Arith.profitFn2, Option.map, ← he]
    · simp only [hat2, py, Arith.profitFn2, Option.map, ← he]
    · simp only [hat2, py, Arith.profitFn2, Option.map, ← he]
    · have := ha.only a ha'
      simp at ha'
      simp only [hat2, py, ha', this]
    · simp only [py, hal, h3a]; rfl
    · simp only [py, hpl, h3p]; rfl
    · simp only [Arith.profitFn2, Option.some.injEq] at he'
      rw [← he', ← he]
      simp only [py, hnl1, h3q]
    · simp only [py, h3n]; omega
    · simp only [py, h3n]; omega
    · simp only [py, h3n]; omega
    · simp only [py, h3n]; omega
  have hm : PMoves l st (s3.put l (.inst "ProfitOracle" (at2.set "vy" (.num e.vy)))) := by
    refine ⟨hf3.put _ (.inl rfl), fun k hk => ?_⟩
    rcases hk with rfl | ⟨attrs', a, h3, h4, h5⟩
    · exact .inl (.inl rfl)
    · rw [heap_put_self] at h3
      simp only [Option.some.injEq, Obj.inst.injEq, true_and] at h3
      subst h3
      simp only [List.mem_cons, List.not_mem_nil, or_false] at h4
      rcases h4 with rfl | rfl | rfl
      · exact .inl (.inr ⟨attrs, "price_out", hl, by simp, by simpa only [hat2, py] using h5⟩)
      · exact .inl (.inr ⟨attrs, "elasticities", hl, by simp, by simpa only [hat2, py] using h5⟩)
      · simp only [hat2, py, Option.some.injEq, Val.ref.injEq] at h5
        right; omega
  rw [call_meth hl method_ProfitOracle_fn2 rfl]
  simp only [Source.ProfitOracle.ProfitOracle.fn2]
  have e1 : A.add o.logPA (A.dot o.elasticities x) = e.logCobb := rfl
  have e2 : (fun i => A.mul (o.priceOut i) (A.rnd (Real.exp (x i)))) = e.q := rfl
  have e3 : A.add (e.q 0) (e.q 1) = e.vy := rfl
  simp only [py, hl, ha.logPA, ha.el, hla, hx, hxl, ha.price, hlp, hpl, lt_ne hlt, lt_ne h1, lt_ne h2, lt_ne_add hlt, lt_ne_add h1, lt_ne_add h2, hnl, hnl1, e1, e2, ← hat2, ← hs3, h3l, hat, i0, i1, e3, binOp_left hg, hc2]
  refine ⟨_, ?_, hend, hm⟩
  simp only [Arith.profitFn2, Arith.plog, ← he]
  by_cases hp : A.add g e.vy ≤ 0
  · simp only [py, hp, Except.map, outcome, excOf]
  · simp only [py, hp, Except.map, outcome, hc2]

/-- `self.q / (gamma + self.vy) - self.elasticities`, wherever it stands. -/
theorem profit_slope {e : ProfitEval} (h : ProfitAt l st o) (he : o.last = some e) (hg : vg.toFloat A = some g) {env : Env} {cl : Val → List Val → M W Val} (h1 : env "self" = some (.ref l)) (h2 : env "gamma" = some vg) :
    ∃ st' k, eval (mach A ext) cl env (.bin .sub (.bin .div (.attr (.name "self") "q") (.bin .add (.name "gamma") (.attr (.name "self") "vy"))) (.attr (.name "self") "elasticities")) st
        = outcome (fun _ => .ref k) (A.profitSlope o e g) st' ∧ ProfitAt l st' o ∧ PMoves l st st' ∧ (∀ y, A.profitSlope o e g = .ok y → st'.heap k = some (.vec 2 y) ∧ st.next ≤ k ∧ k < st'.next) := by
  have h' := h
  obtain ⟨⟨attrs, la, lp, lq, hl, ha, hla, hlp, hlq, hla', hlp'⟩, hlt, hi⟩ := h'
  have hq := ha.q
  have hv := ha.vy
  rw [he] at hq hv
  obtain ⟨hlq, hlq'⟩ := hlq e he
  simp only [py, h1, h2, hl, hq, hv, Option.map, binOp_left hg, hlq, Arith.profitSlope]
  by_cases hz : A.add g e.vy = 0
  · simp only [py, hz, outcome, excOf]
    exact ⟨st, 0, rfl, h, .refl _ _, nofun⟩
  · simp only [py, hz, hl, lt_ne hlt, ha.el, lt_ne hla', hla, outcome]
    refine ⟨_, _, rfl, (h.alloc _).alloc _, ((PMoves.refl _ _).alloc hlt _).alloc (by simp only [py]; omega) _, fun y hy => ⟨?_, ?_, ?_⟩⟩
    · obtain rfl := (Except.ok.inj hy)
      simp only [py]
    · exact Nat.le_succ _
    · simp only [py]; omega

theorem profit_grad2 (h : ProfitAt l st o) (hg : vg.toFloat A = some g) :
    ∃ st' k, call (mach A ext) (fuel + 1) (.meth (.ref l) "grad2") [vg] st = outcome (fun _ => .ref k) (A.profitGrad2 o g) st' ∧ ProfitAt l st' o ∧ PMoves l st st' ∧ (∀ y, A.profitGrad2 o g = .ok y → st'.heap k = some (.vec 2 y) ∧ st.next ≤ k ∧ k < st'.next) := by
  obtain ⟨attrs, la, lp, lq, hl, ha, -⟩ := h.obj
  rw [call_meth hl method_ProfitOracle_grad2 rfl]
  simp only [Source.ProfitOracle.ProfitOracle.grad2, Arith.profitGrad2]
  cases he : o.last with
  | none =>
    have hq := ha.q
    rw [he] at hq
    refine ⟨st, 0, ?_, h, .refl _ _, nofun⟩
    simp only [py, hl, hq, Option.map]
    rfl
  | some e =>
    dsimp only
    obtain ⟨st', k, h1, h2, h3, h4⟩ := profit_slope (A := A) (ext := ext) (cl := call (mach A ext) fuel) (env := (Env.empty.set "self" (.ref l)).set "gamma" vg) h he hg (by simp only [py]) (by simp only [py])
    refine ⟨st', k, ?_, h2, h3, h4⟩
    rw [runBody_cons, runBody_cons, runBody_nil, execs_cons, exec_ret, h1]
    cases A.profitSlope o e g <;> rfl

/-- `self.fns[self.idx](xc, gamma)`. -/
theorem profit_fns (h : ProfitAt l st o) (hi : o.idx = 0 ∨ o.idx = 1) (hx : st.heap lx = some (.vec 2 x)) (hg : vg.toFloat A = some g) {m : String} (hm : m = if o.idx = 0 then "fn1" else "fn2") :
    ∃ st', call (mach A ext) (fuel + 2) (.meth (.ref l) m) [.ref lx, vg] st = outcome (fun y => .num y) (A.profitFns o x g).2 st' ∧ ProfitAt l st' (A.profitFns o x g).1 ∧ PMoves l st st' := by
  rcases hi with hi | hi
  · rw [hm, hi, if_pos rfl, profit_fn1 h hx, Arith.profitFns, hi, if_pos rfl]
    exact ⟨st, rfl, h, .refl _ _⟩
  · rw [hm, hi, if_neg (by decide), Arith.profitFns, hi, if_neg (by decide), if_pos rfl]
    exact profit_fn2 h hx hg

/-- `self.grads[self.idx](gamma)`. -/
theorem profit_grads (hA : Literals A) (h : ProfitAt l st o) (hi : o.idx = 0 ∨ o.idx = 1) (hg : vg.toFloat A = some g) {m : String} (hm : m = if o.idx = 0 then "grad1" else "grad2") :
    ∃ st' k, call (mach A ext) (fuel + 2) (.meth (.ref l) m) [vg] st = outcome (fun _ => .ref k) (A.profitGrads o g) st' ∧ ProfitAt l st' o ∧ PMoves l st st' ∧ (∀ y, A.profitGrads o g = .ok y → st'.heap k = some (.vec 2 y) ∧ st.next ≤ k ∧ k < st'.next) := by
  rcases hi with hi | hi
  · rw [hm, hi, if_pos rfl, profit_grad1 hA h, Arith.profitGrads, hi, if_pos rfl]
    refine ⟨_, _, rfl, h.alloc _, (PMoves.refl _ _).alloc h.lt _, fun y hy => ⟨?_, le_rfl, Nat.lt_succ_self _⟩⟩
    simp only [Except.ok.injEq] at hy
    rw [← hy]; exact heap_alloc_self _
  · rw [hm, hi, if_neg (by decide), Arith.profitGrads, hi, if_neg (by decide), if_pos rfl]
    exact profit_grad2 h hg

end

/-! ### `assess_feas` -/

/-- The variables of `assess_feas`. -/
def FeasVars (l lx : ℕ) (vg : Val) (env : Env) : Prop := env "self" = some (.ref l) ∧ env "xc" = some (.ref lx) ∧ env "gamma" = some vg

section

variable {l lx : ℕ} {o : ProfitOracle} {x : Vec 2} {vg : Val} {g : ℝ}

/-- A new index. -/
theorem ProfitAt.setIdx (h : ProfitAt l st o) (i : ℤ) (hi : i = -1 ∨ i = 0 ∨ i = 1) {attrs : Env} (hl : st.heap l = some (.inst "ProfitOracle" attrs)) :
    ProfitAt l (st.put l (.inst "ProfitOracle" (attrs.set "idx" (.int i)))) { o with idx := i } ∧ PMoves l st (st.put l (.inst "ProfitOracle" (attrs.set "idx" (.int i)))) := by
  obtain ⟨⟨attrs', la, lp, lq, hl', ha, hla, hlp, hlq, h1, h2⟩, hlt, hi'⟩ := h
  obtain rfl : attrs = attrs' := by rw [hl] at hl'; simpa using hl'
  have hal : (la = l) = False := by simp; rintro rfl; rw [hl] at hla; simp at hla
  have hpl : (lp = l) = False := by simp; rintro rfl; rw [hl] at hlp; simp at hlp
  refine ⟨⟨⟨_, la, lp, lq, heap_put_self _ _, ⟨?_, ?_, ?_, ?_, ?_, ?_, ?_, ?_, ?_, ?_, fun a ha' => ?_⟩, ?_, ?_, fun e he => ⟨?_, ?_⟩, h1, h2⟩, hlt, hi⟩, ⟨(Frame.refl (· = l) st).put _ (.inl rfl), fun k hk => .inl ?_⟩⟩
  · simp only [py, Option.getD]
  · simpa only [py] using ha.logPA
  · simpa only [py] using ha.logK
  · simpa only [py] using ha.price
  · simpa only [py] using ha.el
  · simpa only [py] using ha.fns
  · simpa only [py] using ha.grads
  · simpa only [py] using ha.cobb
  · simpa only [py] using ha.q
  · simpa only [py] using ha.vy
  · have := ha.only a ha'
    simp at ha'
    simp only [py, ha', this]
  · simp only [py, hal, hla]
  · simp only [py, hpl, hlp]
  · have hql : (lq = l) = False := by simp; rintro rfl; rw [(hlq e he).1] at hl; simp at hl
    simp only [py, hql, (hlq e he).1]
  · exact (hlq e he).2
  · rcases hk with rfl | ⟨attrs', a, h3, h4, h5⟩
    · exact .inl rfl
    · rw [heap_put_self] at h3
      simp only [Option.some.injEq, Obj.inst.injEq, true_and] at h3
      subst h3
      refine .inr ⟨attrs, a, hl, h4, ?_⟩
      rwa [set_ne] at h5
      rintro rfl
      simp at h4

theorem ProfitAt.readIdx (h : ProfitAt l st o) {cl : Val → List Val → M W Val} : getAttr (mach A ext) cl (.ref l) "idx" st = .ok (.int o.idx) st := by
  obtain ⟨attrs, la, lp, lq, hl, ha, -⟩ := h.obj
  have := ha.idx
  cases hi : attrs "idx" with
  | none =>
    rw [hi] at this
    simp only [py, hl, hi]
    rw [← this]
    rfl
  | some v =>
    rw [hi] at this
    simp only [py, hl, hi]
    rw [← this]
    rfl

theorem turn_idx (h : o.idx = -1 ∨ o.idx = 0 ∨ o.idx = 1) : o.turn.idx = 0 ∨ o.turn.idx = 1 := by
  unfold ProfitOracle.turn
  dsimp only
  split_ifs <;> omega

/-- `self.idx += 1` and the reset. -/
theorem profit_next (h : ProfitAt l st o) {env : Env} (hv : FeasVars l lx vg env) {cl : Val → List Val → M W Val} (R : List PStmt) :
    ∃ st', execs (mach A ext) cl ((loopBody Source.ProfitOracle.ProfitOracle.assess_feas.body).take 2 ++ R) env st = execs (mach A ext) cl R env st' ∧ ProfitAt l st' o.turn ∧ PMoves l st st' := by
  obtain ⟨attrs, la, lp, lq, hl, ha, -⟩ := h.obj
  have hr := h.readIdx (A := A) (ext := ext) (cl := cl)
  obtain ⟨hs, -, -⟩ := hv
  simp only [Source.ProfitOracle.ProfitOracle.assess_feas, loopBody, List.take, List.cons_append, List.nil_append]
  by_cases h2 : o.idx + 1 = 2
  · obtain ⟨h4, h5⟩ := h.setIdx 0 (by simp) hl
    refine ⟨st.put l (.inst "ProfitOracle" (attrs.set "idx" (.int 0))), ?_, ?_, h5⟩
    · rw [execs_cons, exec_aug, aug_attr]
      simp only [eval_name, hs, readVar_some, rbind_ok, bind_apply, hr]
      simp only [py, hs, hl, h2]
      rw [set_set]
    · have : o.turn = { o with idx := 0 } := by simp only [ProfitOracle.turn, h2, if_true]
      rw [this]; exact h4
  · have h3 : o.idx + 1 = -1 ∨ o.idx + 1 = 0 ∨ o.idx + 1 = 1 := by have := h.idx; omega
    obtain ⟨h4, h5⟩ := h.setIdx (o.idx + 1) h3 hl
    refine ⟨_, ?_, ?_, h5⟩
    · rw [execs_cons, exec_aug, aug_attr]
      simp only [eval_name, hs, readVar_some, rbind_ok, bind_apply, hr]
      simp only [py, hs, hl, h2]
    · have : o.turn = { o with idx := o.idx + 1 } := by simp only [ProfitOracle.turn, h2, if_false]
      rw [this]; exact h4

/-- One turn of the loop. -/
theorem profit_turn (hA : Literals A) (h : ProfitAt l st o) (hx : st.heap lx = some (.vec 2 x)) (hlx : lx < st.next) (hg : vg.toFloat A = some g) {env : Env} (hv : FeasVars l lx vg env) (w : Val) :
    match A.profitFns o.turn x g with
    | (o1, .error f) => ∃ st', turn (mach A ext) (call (mach A ext) (fuel + 2)) (.name "_") (loopBody Source.ProfitOracle.ProfitOracle.assess_feas.body) w env st = .exc (excOf f) st' ∧ ProfitAt l st' o1 ∧ PMoves l st st'
    | (o1, .ok fj) =>
      if fj > 0 then
        ∃ st' k, turn (mach A ext) (call (mach A ext) (fuel + 2)) (.name "_") (loopBody Source.ProfitOracle.ProfitOracle.assess_feas.body) w env st
            = (outcome (fun _ => .tuple [.ref k, .num fj]) (A.profitGrads o1 g) st').bind (fun v => M.pure (.ret v)) ∧ ProfitAt l st' o1 ∧ PMoves l st st'
          ∧ (∀ y, A.profitGrads o1 g = .ok y → st'.heap k = some (.vec 2 y) ∧ st.next ≤ k ∧ k < st'.next)
      else ∃ st' env', turn (mach A ext) (call (mach A ext) (fuel + 2)) (.name "_") (loopBody Source.ProfitOracle.ProfitOracle.assess_feas.body) w env st = .ok (.next env') st' ∧ FeasVars l lx vg env' ∧ ProfitAt l st' o1 ∧ PMoves l st st' := by
  have hv1 : FeasVars l lx vg (env.set "_" w) := by obtain ⟨h1, h2, h3⟩ := hv; exact ⟨by simpa only [py] using h1, by simpa only [py] using h2, by simpa only [py] using h3⟩
  obtain ⟨s1, h1, hp1, hm1⟩ := profit_next (A := A) (ext := ext) h hv1 (cl := call (mach A ext) (fuel + 2)) ((loopBody Source.ProfitOracle.ProfitOracle.assess_feas.body).drop 2)
  rw [List.take_append_drop] at h1
  have hx1 : s1.heap lx = some (.vec 2 x) := (hm1.frame.same lx hlx (h.ne hx)).trans hx
  have hi := turn_idx h.idx
  obtain ⟨s2, h2, hp2, hm2⟩ := profit_fns (A := A) (ext := ext) (fuel := fuel) hp1 hi hx1 hg rfl
  have hi2 : (A.profitFns o.turn x g).1.idx = o.turn.idx := by
    unfold Arith.profitFns; rcases hi with hi | hi <;> simp [hi, Arith.profitFn2]
  obtain ⟨attrs1, la1, lp1, lq1, hl1, ha1, -⟩ := hp1.obj
  obtain ⟨attrs2, la2, lp2, lq2, hl2, ha2, -⟩ := hp2.obj
  have hr1 := hp1.readIdx (A := A) (ext := ext) (cl := call (mach A ext) (fuel + 2))
  have hr2 := hp2.readIdx (A := A) (ext := ext) (cl := call (mach A ext) (fuel + 2))
  rw [hi2] at hr2
  obtain ⟨s3, k, h3, hp3, hm3, hk3⟩ := profit_grads (A := A) (ext := ext) (fuel := fuel) hA hp2 (hi2.symm ▸ hi) hg (m := if o.turn.idx = 0 then "grad1" else "grad2") (by rw [hi2])
  obtain ⟨e1, e2, e3⟩ := hv1
  have hf1 : getItem (.tuple [.meth (.ref l) "fn1", .meth (.ref l) "fn2"]) [.pos o.turn.idx] s1 = .ok (.meth (.ref l) (if o.turn.idx = 0 then "fn1" else "fn2")) s1 := by
    rcases hi with hi | hi <;> (rw [hi]; simp only [py]; try rfl)
  have hf2 : getItem (.tuple [.meth (.ref l) "grad1", .meth (.ref l) "grad2"]) [.pos o.turn.idx] s2 = .ok (.meth (.ref l) (if o.turn.idx = 0 then "grad1" else "grad2")) s2 := by
    rcases hi with hi | hi <;> (rw [hi]; simp only [py]; try rfl)
  have hm12 := hm1.trans hm2
  rw [turn_apply, assign_name, rbind_ok, h1]
  generalize hR : execs (mach A ext) (call (mach A ext) (fuel + 2)) (List.drop 2 (loopBody Source.ProfitOracle.ProfitOracle.assess_feas.body)) (env.set "_" w) s1 = R
  simp only [Source.ProfitOracle.ProfitOracle.assess_feas, loopBody, List.drop] at hR
  have ga1 : ∀ a v, attrs1 a = some v → getAttr (mach A ext) (call (mach A ext) (fuel + 2)) (.ref l) a s1 = .ok v s1 := fun a v hav => by simp only [py, hl1, hav]
  have ga2 : ∀ a v, attrs2 a = some v → getAttr (mach A ext) (call (mach A ext) (fuel + 2)) (.ref l) a s2 = .ok v s2 := fun a v hav => by simp only [py, hl2, hav]
  rw [execs_cons, exec_assign] at hR
  simp only [eval_call, eval_index, eval_attr, eval_name, evals_cons, evals_nil, e1, e2, e3, readVar_some, rbind_ok, bind_apply, pure_apply, ga1 _ _ ha1.fns, hr1, toIdxs_cons, toIdxs_nil, toIdx_int, hf1, h2] at hR
  rcases hr : A.profitFns o.turn x g with ⟨o1, f | fj⟩ <;> rw [hr] at hR hp2 h2 h3 hk3 hp3 <;> dsimp only at hR hp2 h2 h3 hk3 hp3 ⊢
  · exact ⟨s2, hR.symm, hp2, hm12⟩
  · simp only [outcome, py] at hR
    by_cases hpos : fj > 0
    · rw [if_pos hpos]
      refine ⟨s3, k, ?_, hp3, hm12.trans hm3, fun y hy => ⟨(hk3 y hy).1, hm12.frame.next.trans (hk3 y hy).2.1, (hk3 y hy).2.2⟩⟩
      rw [← hR]
      have hr2' := (getAttr_ref l "idx").symm.trans hr2
      simp only [py, cmp_gt_lit, hpos, e1, e3, ga2 _ _ ha2.grads, hr2', hf2, h3]
      cases A.profitGrads o1 g <;> simp only [outcome, py]
    · rw [if_neg hpos]
      refine ⟨s2, (env.set "_" w).set "fj" (.num fj), hR.symm.trans ?_, ?_, hp2, hm12⟩
      · simp only [py, cmp_gt_lit, hpos]
      · exact ⟨by simpa only [py] using e1, by simpa only [py] using e2, by simpa only [py] using e3⟩

/-- The outcome of `assess_feas`. -/
def FeasRes (l : ℕ) (st : St W) (r : ProfitOracle × Except Fault (Option (Vec 2 × ℝ))) (res : Res W Val) : Prop :=
  match r with
  | (o1, .error f) => ∃ st', res = .exc (excOf f) st' ∧ ProfitAt l st' o1 ∧ PMoves l st st'
  | (o1, .ok none) => ∃ st', res = .ok .none st' ∧ ProfitAt l st' o1 ∧ PMoves l st st'
  | (o1, .ok (some c)) => ∃ st' k, res = .ok (.tuple [.ref k, .num c.2]) st' ∧ ProfitAt l st' o1 ∧ PMoves l st st' ∧ st'.heap k = some (.vec 2 c.1) ∧ st.next ≤ k ∧ k < st'.next

theorem FeasRes.pre {st st' : St W} {r : ProfitOracle × Except Fault (Option (Vec 2 × ℝ))} {res : Res W Val} (hm : PMoves l st st') (h : FeasRes l st' r res) : FeasRes l st r res := by
  rcases r with ⟨o1, f | _ | c⟩
  · obtain ⟨s, h1, h2, h3⟩ := h
    exact ⟨s, h1, h2, hm.trans h3⟩
  · obtain ⟨s, h1, h2, h3⟩ := h
    exact ⟨s, h1, h2, hm.trans h3⟩
  · obtain ⟨s, k, h1, h2, h3, h4, h5, h6⟩ := h
    exact ⟨s, k, h1, h2, hm.trans h3, h4, hm.frame.next.trans h5, h6⟩

theorem profit_loop (hA : Literals A) (vs : List Val) (h : ProfitAt l st o) (hx : st.heap lx = some (.vec 2 x)) (hlx : lx < st.next) (hg : vg.toFloat A = some g) {env : Env} (hv : FeasVars l lx vg env) :
    FeasRes l st (A.profitLoop x g vs.length o)
      (((loop (turn (mach A ext) (call (mach A ext) (fuel + 2)) (.name "_") (loopBody Source.ProfitOracle.ProfitOracle.assess_feas.body)) vs env st).bind
        (after (mach A ext) (call (mach A ext) (fuel + 2)) [.ret .none])).bind result) := by
  induction vs generalizing st o env with
  | nil => exact ⟨st, rfl, h, .refl _ _⟩
  | cons v vs ih =>
    have ht := profit_turn (A := A) (ext := ext) (fuel := fuel) hA h hx hlx hg hv v
    rw [List.length_cons, Arith.profitLoop, loop_cons]
    rcases hr : A.profitFns o.turn x g with ⟨o1, f | fj⟩ <;> rw [hr] at ht <;> dsimp only at ht ⊢
    · obtain ⟨st', h1, h2, h3⟩ := ht
      rw [h1]
      exact ⟨st', rfl, h2, h3⟩
    · by_cases hp : fj > 0
      · rw [if_pos hp] at ht ⊢
        obtain ⟨st', k, h1, h2, h3, h4⟩ := ht
        rw [h1]
        cases hgr : A.profitGrads o1 g with
        | error f => exact ⟨st', rfl, h2, h3⟩
        | ok y => exact ⟨st', k, rfl, h2, h3, h4 y hgr⟩
      · rw [if_neg hp] at ht ⊢
        obtain ⟨st', env', h1, h2, h3, h4⟩ := ht
        rw [h1]
        exact (ih h3 ((h4.frame.same lx hlx (h.ne hx)).trans hx) (hlx.trans_le h4.frame.next) h2).pre h4

/-- `assess_feas`. -/
theorem profit_feas (hA : Literals A) (h : ProfitAt l st o) (hx : st.heap lx = some (.vec 2 x)) (hlx : lx < st.next) (hg : vg.toFloat A = some g) :
    FeasRes l st (A.profitFeas o x g) (call (mach A ext) (fuel + 3) (.meth (.ref l) "assess_feas") [.ref lx, vg] st) := by
  obtain ⟨attrs, la, lp, lq, hl, ha, -⟩ := h.obj
  have := profit_loop (A := A) (ext := ext) (fuel := fuel) hA [.int 0, .int 1] h hx hlx hg (env := ((Env.empty.set "self" (.ref l)).set "xc" (.ref lx)).set "gamma" vg) ⟨by simp only [py], by simp only [py], by simp only [py]⟩
  rw [call_meth hl method_ProfitOracle_assess_feas rfl]
  simp only [loopBody, Source.ProfitOracle.ProfitOracle.assess_feas] at this ⊢
  simp only [runBody_cons, runBody_nil, execs_cons, exec_for, eval_list, evals_cons, evals_nil, eval_int, iterate_list, rbind_ok, bind_apply, pure_apply]
  exact this

/-! ### `assess_optim` -/

/-- The outcome of `assess_optim`. -/
def OptimRes (l : ℕ) (st : St W) (r : ProfitOracle × Except Fault ((Vec 2 × ℝ) × Option ℝ)) (res : Res W Val) : Prop :=
  match r with
  | (o1, .error f) => ∃ st', res = .exc (excOf f) st' ∧ ProfitAt l st' o1 ∧ PMoves l st st'
  | (o1, .ok (c, g1)) => ∃ st' k, res = .ok (.tuple [.tuple [.ref k, .num c.2], (g1.map Val.num).getD .none]) st' ∧ ProfitAt l st' o1 ∧ PMoves l st st' ∧ st'.heap k = some (.vec 2 c.1) ∧ st.next ≤ k ∧ k < st'.next

theorem OptimRes.pre {st st' : St W} {r : ProfitOracle × Except Fault ((Vec 2 × ℝ) × Option ℝ)} {res : Res W Val} (hm : PMoves l st st') (h : OptimRes l st' r res) : OptimRes l st r res := by
  rcases r with ⟨o1, f | ⟨c, g1⟩⟩
  · obtain ⟨s, h1, h2, h3⟩ := h
    exact ⟨s, h1, h2, hm.trans h3⟩
  · obtain ⟨s, k, h1, h2, h3, h4, h5, h6⟩ := h
    exact ⟨s, k, h1, h2, hm.trans h3, h4, hm.frame.next.trans h5, h6⟩

theorem profit_optim (hA : Literals A) (h : ProfitAt l st o) (hx : st.heap lx = some (.vec 2 x)) (hlx : lx < st.next) (hg : vg.toFloat A = some g) :
    OptimRes l st (A.profitOptim o x g) (call (mach A ext) (fuel + 4) (.meth (.ref l) "assess_optim") [.ref lx, vg] st) := by
  obtain ⟨attrs, la, lp, lq, hl, ha, -⟩ := h.obj
  have hf := profit_feas (A := A) (ext := ext) (fuel := fuel) hA h hx hlx hg
  have haf := ha.only "assess_feas" (by decide)
  rw [call_meth hl method_ProfitOracle_assess_optim rfl, Arith.profitOptim]
  rcases hr : A.profitFeas o x g with ⟨o1, f | _ | c⟩ <;> rw [hr] at hf <;> dsimp only
  · obtain ⟨st', h1, h2, h3⟩ := hf
    refine ⟨st', ?_, h2, h3⟩
    simp only [Source.ProfitOracle.ProfitOracle.assess_optim, py, hl, haf, h1]
  · obtain ⟨s1, h1, h2, h3⟩ := hf
    refine OptimRes.pre h3 ?_
    obtain ⟨attrs1, la1, lp1, lq1, hl1, ha1, -⟩ := h2.obj
    have ht : runBody (mach A ext) (call (mach A ext) (fuel + 3)) Source.ProfitOracle.ProfitOracle.assess_optim.params Source.ProfitOracle.ProfitOracle.assess_optim.body [.ref l, .ref lx, vg] Env.empty st
        = (execs (mach A ext) (call (mach A ext) (fuel + 3)) (List.drop 2 Source.ProfitOracle.ProfitOracle.assess_optim.body) ((((Env.empty.set "self" (.ref l)).set "xc" (.ref lx)).set "gamma" vg).set "cut" .none) s1).bind result := by
      simp only [Source.ProfitOracle.ProfitOracle.assess_optim, List.drop]
      generalize PStmt.assign (.name "gamma") _ :: _ = R
      simp only [py, hl, haf, h1]
    rw [ht]
    simp only [Source.ProfitOracle.ProfitOracle.assess_optim, List.drop]
    rw [Arith.profitReport]
    cases he : o1.last with
    | none =>
      have hc := ha1.cobb
      rw [he] at hc
      refine ⟨s1, ?_, h2, .refl _ _⟩
      simp only [py, hl1, hc, Option.map]
      rfl
    | some e =>
      have hc := ha1.cobb
      have hv := ha1.vy
      rw [he] at hc hv
      set g1 := A.sub (A.exp e.logCobb) e.vy with hg1
      obtain ⟨s2, k, h4, h5, h6, h7⟩ := profit_slope (A := A) (ext := ext) (cl := call (mach A ext) (fuel + 3)) (vg := .num g1) (g := g1)
        (env := ((((Env.empty.set "self" (.ref l)).set "xc" (.ref lx)).set "gamma" vg).set "cut" .none).set "gamma" (.num g1)) h2 he rfl (by simp only [py]) (by simp only [py])
      have e1 : A.sub (A.rnd (Real.exp e.logCobb)) e.vy = g1 := rfl
      have ht2 : ∀ R : List PStmt, execs (mach A ext) (call (mach A ext) (fuel + 3)) (((List.drop 2 Source.ProfitOracle.ProfitOracle.assess_optim.body).take 1) ++ R) ((((Env.empty.set "self" (.ref l)).set "xc" (.ref lx)).set "gamma" vg).set "cut" .none) s1
          = execs (mach A ext) (call (mach A ext) (fuel + 3)) R (((((Env.empty.set "self" (.ref l)).set "xc" (.ref lx)).set "gamma" vg).set "cut" .none).set "gamma" (.num g1)) s1 := by
        intro R
        simp only [Source.ProfitOracle.ProfitOracle.assess_optim, List.drop, List.take, List.cons_append, List.nil_append]
        simp only [py, hl1, hc, hv, Option.map, e1]
      have ht3 := ht2 (List.drop 3 Source.ProfitOracle.ProfitOracle.assess_optim.body)
      simp only [Source.ProfitOracle.ProfitOracle.assess_optim, List.drop, List.take, List.cons_append, List.nil_append] at ht3
      rw [ht3, execs_cons, exec_assign, h4]
      dsimp only
      rw [← show A.sub (A.exp e.logCobb) e.vy = g1 from rfl] at h4 h7 ⊢
      cases hs : A.profitSlope o1 e (A.sub (A.exp e.logCobb) e.vy) with
      | error f => exact ⟨s2, rfl, h5, h6⟩
      | ok y =>
        refine ⟨s2, k, ?_, h5, h6, h7 y hs⟩
        simp only [outcome, py, Option.map, Option.getD, hA.lit0]
  · obtain ⟨s1, k, h1, h2, h3, h4⟩ := hf
    refine ⟨s1, k, ?_, h2, h3, h4⟩
    simp only [Source.ProfitOracle.ProfitOracle.assess_optim, py, hl, haf, h1, Option.map, Option.getD]

end

/-! ### As an oracle of the loops -/

/-- `ProfitOracle.assess_optim` as the oracle of `cutting_plane_optim`. -/
noncomputable def _root_.Ellalgo.Arith.profitOracle (A : Arith) : OracleOptim ProfitOracle (Vec 2) (Cut 2) ℝ := fun o x γ =>
  ((A.profitOptim o x γ).1, (A.profitOptim o x γ).2.map fun a => ((a.1.1, CutChoice.scalar a.1.2), a.2))

/-- A number as the user or the code writes it. -/
def IsTarget (A : Arith) (g : ℝ) (v : Val) : Prop := v.toFloat A = some g

theorem IsTarget.isNone {g : ℝ} {v : Val} (h : IsTarget A g v) : v.isNone = false := by
  cases v <;> first | rfl | exact absurd h (by simp [IsTarget, Val.toFloat])

theorem isTarget_num (g : ℝ) : IsTarget A g (.num g) := rfl

/-- A cut with a new array. -/
theorem isCut_new {st' : St W} {k : ℕ} {c : Vec 2 × ℝ} (h : st'.heap k = some (.vec 2 c.1)) (hk : k < st'.next) : IsCut (n := 2) st' (c.1, .scalar c.2) (.tuple [.ref k, .num c.2]) :=
  ⟨k, _, rfl, hk, h, .scalar _⟩

theorem ownCut_new {own : St W → ℕ → Prop} {st st' : St W} {k : ℕ} {v : Val} (hk : st.next ≤ k) : OwnCut own st st' (.tuple [.ref k, v]) := by
  intro lg vb he
  simp only [Val.tuple.injEq, List.cons.injEq, Val.ref.injEq] at he
  exact .inr (he.1 ▸ hk)

/-- `ProfitOracle` meets the contract for `assess_optim`. -/
theorem profit_oracle {free : Prop} (hA : Literals A) (l : ℕ) : OptimOracle A ext (fuel + 4) (.ref l) (profitOwn (W := W) l) A.profitOracle (IsTarget A) (ProfitAt l) free where
  toOracleAt := profit_at l
  has {st o} h := by
    obtain ⟨attrs, la, lp, lq, hl, ha, -⟩ := h.obj
    have := ha.only "assess_optim" (by decide)
    intro cl
    simp only [py, hl, this]
  num h := h.isNone
  assess {st o lx x g vg} h hx hlx hg := by
    have := profit_optim (A := A) (ext := ext) (fuel := fuel) hA h hx hlx hg
    simp only [Arith.profitOracle]
    rcases hr : A.profitOptim o x g with ⟨o1, f | ⟨c, _ | g1⟩⟩ <;> rw [hr] at this
    · obtain ⟨s, h1, h2, h3⟩ := this
      exact ⟨s, h1, h2, h3.moves⟩
    · obtain ⟨s, k, h1, h2, h3, h4, h5, h6⟩ := this
      exact ⟨_, s, h1, h2, h3.moves, isCut_new h4 h6, .inr (ownCut_new h5)⟩
    · obtain ⟨s, k, h1, h2, h3, h4, h5, h6⟩ := this
      exact ⟨_, _, s, h1, h2, h3.moves, isCut_new h4 h6, .inr (ownCut_new h5), rfl⟩

/-- `ProfitOracle((unit_price, scale, limit), elasticities, price_out)`. -/
theorem profit_init {la lp : ℕ} {a v : Vec 2} (hla : st.heap la = some (.vec 2 a)) (hlp : st.heap lp = some (.vec 2 v)) (h1 : la < st.next) (h2 : lp < st.next) (p s k : ℝ) :
    match A.profitInit p s k a v with
    | .error f => ∃ st', call (mach A ext) (fuel + 2) (.glob "ProfitOracle") [.tuple [.num p, .num s, .num k], .ref la, .ref lp] st = .exc (excOf f) st' ∧ Frame (fun _ => False) st st'
    | .ok o => ∃ st', call (mach A ext) (fuel + 2) (.glob "ProfitOracle") [.tuple [.num p, .num s, .num k], .ref la, .ref lp] st = .ok (.ref st.next) st'
        ∧ ProfitAt st.next st' o ∧ Frame (fun _ => False) st st' ∧ ∀ j, profitOwn st.next st' j → j = st.next ∨ j = la ∨ j = lp := by
  by_cases hp : A.mul p s ≤ 0
  · have hi : A.profitInit p s k a v = .error .mathDomain := by simp only [Arith.profitInit, Arith.plog, hp, if_true]; rfl
    rw [hi]
    refine ⟨st.alloc (.inst "ProfitOracle" Env.empty), ?_, (Frame.refl (fun _ => False) st).alloc _⟩
    rw [call_class (k := Source.ProfitOracle.ProfitOracle) (f := Source.ProfitOracle.ProfitOracle.__init__) rfl rfl rfl rfl]
    simp only [Source.ProfitOracle.ProfitOracle.__init__]
    simp only [py, hp]
    rfl
  · by_cases hk : k ≤ 0
    · have hi : A.profitInit p s k a v = .error .mathDomain := by simp only [Arith.profitInit, Arith.plog, hp, hk, if_true, if_false]; rfl
      rw [hi]
      refine ⟨st.alloc (.inst "ProfitOracle" (Env.empty.set "log_pA" (.num (A.rnd (Real.log (A.mul p s)))))), ?_, (Frame.refl (fun _ => False) st).alloc _⟩
      rw [call_class (k := Source.ProfitOracle.ProfitOracle) (f := Source.ProfitOracle.ProfitOracle.__init__) rfl rfl rfl rfl]
      simp only [Source.ProfitOracle.ProfitOracle.__init__]
      simp only [py, hp, hk]
      rfl
    · have hi : A.profitInit p s k a v = .ok ⟨-1, none, A.rnd (Real.log (A.mul p s)), A.rnd (Real.log k), v, a⟩ := by simp only [Arith.profitInit, Arith.plog, hp, hk, if_false]; rfl
      rw [hi]
      set at1 := (((((Env.empty.set "log_pA" (.num (A.rnd (Real.log (A.mul p s))))).set "log_k" (.num (A.rnd (Real.log k)))).set "price_out" (.ref lp)).set "elasticities" (.ref la)).set "fns"
        (.tuple [.meth (.ref st.next) "fn1", .meth (.ref st.next) "fn2"])).set "grads" (.tuple [.meth (.ref st.next) "grad1", .meth (.ref st.next) "grad2"]) with hat
      refine ⟨st.alloc (.inst "ProfitOracle" at1), ?_, ⟨⟨at1, la, lp, 0, heap_alloc_self _, ⟨?_, ?_, ?_, ?_, ?_, ?_, ?_, ?_, ?_, ?_, fun b hb => ?_⟩, ?_, ?_, nofun, ?_, ?_⟩, Nat.lt_succ_self _, .inl rfl⟩, (Frame.refl (fun _ => False) st).alloc _, ?_⟩
      · rw [call_class (k := Source.ProfitOracle.ProfitOracle) (f := Source.ProfitOracle.ProfitOracle.__init__) rfl rfl rfl rfl]
        simp only [Source.ProfitOracle.ProfitOracle.__init__]
        simp only [py, hp, hk, hat]
      any_goals (simp only [hat, py, Option.map, Option.getD]; done)
      · simp only [List.mem_cons, List.not_mem_nil, or_false, not_or] at hb
        simp only [hat, py, hb]
      · rw [heap_alloc_ne h1.ne, hla]
      · rw [heap_alloc_ne h2.ne, hlp]
      · exact h1.trans (Nat.lt_succ_self _)
      · exact h2.trans (Nat.lt_succ_self _)
      · rintro j (rfl | ⟨at', b, h3, h4, h5⟩)
        · exact .inl rfl
        · rw [heap_alloc_self] at h3
          simp only [Option.some.injEq, Obj.inst.injEq, true_and] at h3
          subst h3
          simp only [List.mem_cons, List.not_mem_nil, or_false] at h4
          rcases h4 with rfl | rfl | rfl <;> simp only [hat, py, Option.some.injEq, Val.ref.injEq, reduceCtorEq] at h5
          · exact .inr (.inr h5.symm)
          · exact .inr (.inl h5.symm)

end Ellalgo.Py
