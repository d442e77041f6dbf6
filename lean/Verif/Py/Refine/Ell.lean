import Verif.Py.Arrays
import Verif.Py.Refine.EllCalc

/-!
# The text of `ell.py` computes what `Model/Rounded` says

An ellipsoid on the heap consists of the object, its matrix and its centre; the centre is the array that was given to `Ell(..)` or `set_xc(..)`, which others may hold as well.
-/

set_option linter.unusedSimpArgs false

namespace Ellalgo.Py

variable {W : Type} {n : ℕ}

/-- The attributes of an `Ell` whose helper, matrix and centre are at `lc`, `lm`, `lx`. -/
structure IsEll (A : Arith) (attrs : Env) (e : Ell n) (lc lm lx : ℕ) : Prop where
  helper : attrs "helper" = some (.ref lc)
  mq : attrs "_mq" = some (.ref lm)
  xc : attrs "_xc" = some (.ref lx)
  kappa : ∃ v, attrs "_kappa" = some v ∧ v.toFloat A = some e.kappa
  tsq : attrs "_tsq" = some (.num e.tsq)
  noDefer : attrs "no_defer_trick" = some (.bool e.noDeferTrick) ∨ attrs "no_defer_trick" = none ∧ e.noDeferTrick = false
  only : ∀ a ∉ ["helper", "_mq", "_xc", "_kappa", "_tsq", "no_defer_trick"], attrs a = none

/-- A location with an `Ell`. -/
structure EllAt (A : Arith) (st : St W) (l lm lx : ℕ) (e : Ell n) : Prop where
  obj : ∃ attrs lc, st.heap l = some (.inst "Ell" attrs) ∧ IsEll A attrs e lc lm lx ∧ CalcAt A st lc e.helper
  mq : st.heap lm = some (.mat n n (Matrix.of.symm e.mq))
  xc : st.heap lx = some (.vec n e.xc)
  ltl : l < st.next
  ltm : lm < st.next
  ltx : lx < st.next

/-- A cut: an array of `n` floats and an offset. -/
def IsCut (st : St W) (cut : Cut n) (v : Val) : Prop :=
  ∃ lg vb, v = .tuple [.ref lg, vb] ∧ lg < st.next ∧ st.heap lg = some (.vec n cut.1) ∧ IsBeta st cut.2 vb

theorem isEll_defer {A : Arith} {ext : ℕ → String → List Val → M W Val} {attrs : Env} {e : Ell n} {lc lm lx : ℕ} (h : IsEll A attrs e lc lm lx)
    (cl : Val → List Val → M W Val) (l : ℕ) (st : St W) :
    member (mach A ext) cl l "Ell" "no_defer_trick" (attrs "no_defer_trick") st = .ok (.bool e.noDeferTrick) st := by
  rcases h.noDefer with h | ⟨h, h'⟩
  · rw [h]; rfl
  · rw [h, h']; rfl

theorem IsBeta.mono {st st' : St W} {beta : CutChoice} {v : Val} (h : IsBeta st beta v) (hn : st.next ≤ st'.next)
    (hs : ∀ k < st.next, ∀ n x, st.heap k = some (.vec n x) → st'.heap k = st.heap k) : IsBeta st' beta v := by
  cases h with
  | scalar b => exact .scalar b
  | tuple bs => exact .tuple bs
  | list bs => exact .list bs
  | array l n x h hl => exact .array l n x ((hs l hl n x h).trans h) (hl.trans_le hn)

theorem EllAt.alloc {A : Arith} {st : St W} {l lm lx : ℕ} {e : Ell n} (h : EllAt A st l lm lx e) (o : Obj) : EllAt A (st.alloc o) l lm lx e := by
  obtain ⟨⟨attrs, lc, hl, ha, hc⟩, hmq, hxc, hlt, hltm, hltx⟩ := h
  refine ⟨⟨attrs, lc, ?_, ha, hc.mono (Nat.le_succ _) fun k hk _ _ _ _ => ?_⟩, ?_, ?_, ?_, ?_, ?_⟩
  · rw [heap_alloc_ne hlt.ne, hl]
  · rw [heap_alloc_ne hk.ne]
  · rw [heap_alloc_ne hltm.ne, hmq]
  · rw [heap_alloc_ne hltx.ne, hxc]
  all_goals exact Nat.lt_succ_of_lt ‹_›

theorem CalcAt.frame {A : Arith} {st st' : St W} {l lm lx lc : ℕ} {attrs : Env} {m : Fin n → Fin n → ℝ} {x : Fin n → ℝ} {c : EllCalc}
    (hl : st.heap l = some (.inst "Ell" attrs)) (hm : st.heap lm = some (.mat n n m)) (hx : st.heap lx = some (.vec n x)) (hc : CalcAt A st lc c)
    (hf : Frame (fun k => k = l ∨ k = lm ∨ k = lx) st st') : CalcAt A st' lc c := by
  refine hc.mono hf.next fun k hk c a h1 h2 => hf.same k hk ?_
  rintro (rfl | rfl | rfl)
  · rw [hl] at h2; simp at h2; rcases h1 with rfl | rfl <;> simp at h2
  · rw [hm] at h2; simp at h2
  · rw [hx] at h2; simp at h2

section core

variable {A : Arith} (hA : Literals A) {ext : ℕ → String → List Val → M W Val} {st : St W} {l lm lx : ℕ} {e : Ell n} (he : EllAt A st l lm lx e)
  {cut : Cut n} {v : Val} (hv : IsCut st cut v) (fuel : ℕ)
include hA he hv

/-- `_update_core` for a strategy that does what the model says, wherever the helper and the offset are found. -/
theorem ell_update_core (m : String) (strategy : Strategy)
    (hm : ∀ (st' : St W) (lc : ℕ) (vb : Val) (tsq : ℝ), CalcAt A st' lc e.helper → IsBeta st' cut.2 vb →
      call (mach A ext) (fuel + 1) (.meth (.ref lc) m) [vb, .num tsq] st' = outcome strategyVal (strategy cut.2 tsq) st')
    {lc : ℕ} (hlc : ∀ attrs, st.heap l = some (.inst "Ell" attrs) → attrs "helper" = some (.ref lc)) :
    ∃ st', call (mach A ext) (fuel + 2) (.meth (.ref l) "_update_core") [v, .meth (.ref lc) m] st
        = outcome statusVal (A.updateCore e cut strategy).2 st'
      ∧ EllAt A st' l lm lx (A.updateCore e cut strategy).1
      ∧ Frame (fun k => k = l ∨ k = lm ∨ k = lx) st st' := by
  have he' := he
  obtain ⟨⟨attrs, lc', hl, ha, hc⟩, hmq, hxc, hlt, hltm, hltx⟩ := he'
  obtain rfl : lc' = lc := by have := (hlc attrs hl).symm.trans ha.helper; simpa using this.symm
  obtain ⟨lg, vb, rfl, hltg, hg, hb⟩ := hv
  obtain ⟨vk, hk, hk'⟩ := ha.kappa
  rw [call_meth hl method_Ell_update_core rfl]
  simp only [Source.Ell.Ell._update_core]
  by_cases h0 : ∀ i, cut.1 i = 0
  · simp only [py, hg, hA.lit0, h0, implies_true, Arith.updateCore, excOf]
    exact ⟨_, rfl, he.alloc _, (Frame.refl _ _).alloc _⟩
  by_cases h1 : A.dot cut.1 (A.mv e.mq cut.1) = 0
  · simp only [py, hg, hA.lit0, h0, Arith.updateCore, hl, lt_ne hltg, lt_ne hltm, lt_ne hltx, lt_ne hlt, lt_ne_add hltg, ha.mq, hmq, hk, binOp_left hk', Equiv.apply_symm_apply, h1]
    exact ⟨_, rfl, (he.alloc _).alloc _, ((Frame.refl _ _).alloc _).alloc _⟩
  have hlm : (lm = l) = False := by simp; rintro rfl; rw [hmq] at hl; simp at hl
  have hlx : (lx = l) = False := by simp; rintro rfl; rw [hxc] at hl; simp at hl
  have hmx : (lx = lm) = False := by simp; rintro rfl; rw [hxc] at hmq; simp at hmq
  have hlm' : (l = lm) = False := by simpa [eq_comm] using hlm
  have hlx' : (l = lx) = False := by simpa [eq_comm] using hlx
  have hmx' : (lm = lx) = False := by simpa [eq_comm] using hmx
  set omega := A.dot cut.1 (A.mv e.mq cut.1) with homega
  set s2 : St W := ((st.alloc (.mask n fun i => cut.1 i = 0)).alloc (.vec n (A.mv e.mq cut.1))).put l (.inst "Ell" (attrs.set "_tsq" (.num (A.mul e.kappa omega)))) with hs2
  have hc2 : CalcAt A s2 lc' e.helper := by
    refine hc.mono (by simp only [hs2, py]; omega) fun k hk c a h1 h2 => ?_
    have : (k = l) = False := by simp; rintro rfl; rw [hl] at h2; simp at h2; rcases h1 with rfl | rfl <;> simp at h2
    simp only [hs2, py, this, lt_ne hk, lt_ne_add hk]
  have hb2 : IsBeta s2 cut.2 vb := by
    refine hb.mono (by simp only [hs2, py]; omega) fun k hk _ _ h2 => ?_
    have : (k = l) = False := by simp; rintro rfl; rw [hl] at h2; simp at h2
    simp only [hs2, py, this, lt_ne hk, lt_ne_add hk]
  have hs := hm s2 lc' vb (A.mul e.kappa omega) hc2 hb2
  simp only [py, hg, hA.lit0, h0, hl, lt_ne hltg, lt_ne hltm, lt_ne hltx, lt_ne hlt, lt_ne_add hltg, lt_ne_add hlt, lt_ne_add hltx, lt_ne_add hltm, ha.mq, hmq, hk, binOp_left hk', Equiv.apply_symm_apply, h1, ← homega, ← hs2]
  have hf2 : Frame (fun k => k = l ∨ k = lm ∨ k = lx) st s2 := (((Frame.refl _ _).alloc _).alloc _).put _ (.inl (.inl rfl))
  have h2l : s2.heap l = some (.inst "Ell" (attrs.set "_tsq" (.num (A.mul e.kappa omega)))) := by simp only [hs2, py]
  have h2m : s2.heap lm = some (.mat n n (Matrix.of.symm e.mq)) := by simp only [hs2, py, hlm, lt_ne hltm, lt_ne_add hltm, hmq]
  have h2x : s2.heap lx = some (.vec n e.xc) := by simp only [hs2, py, hlx, lt_ne hltx, lt_ne_add hltx, hxc]
  have h2g : s2.heap (st.next + 1) = some (.vec n (A.mv e.mq cut.1)) := by
    have : (st.next + 1 = l) = False := by simp; omega
    simp only [hs2, py, this]
  have h2n : s2.next = st.next + 2 := rfl
  have ha2 : IsEll A (attrs.set "_tsq" (.num (A.mul e.kappa omega))) { e with tsq := A.mul e.kappa omega } lc' lm lx := by
    refine ⟨?_, ?_, ?_, ⟨vk, ?_, hk'⟩, ?_, ?_, fun a ha' => ?_⟩
    · simp only [py, ha.helper]
    · simp only [py, ha.mq]
    · simp only [py, ha.xc]
    · simp only [py, hk]
    · simp only [py]
    · simpa only [py] using ha.noDefer
    · have := ha.only a ha'
      simp at ha'
      simp only [py, ha', this]
  have he2 : EllAt A s2 l lm lx { e with tsq := A.mul e.kappa omega } :=
    ⟨⟨_, _, h2l, ha2, hc2⟩, h2m, h2x, by omega, by omega, by omega⟩
  clear_value s2
  rcases hr : strategy cut.2 (A.mul e.kappa omega) with f | ⟨s, _ | p⟩
  · rw [hr] at hs
    simp only [py, h2l, hs, outcome, Arith.updateCore, h0, ← homega, h1, hr]
    exact ⟨s2, rfl, he2, hf2⟩
  · rw [hr] at hs
    simp only [py, h2l, hs, outcome, Arith.updateCore, h0, ← homega, h1, hr]
    cases s <;> simp only [py, strategyVal, statusVal] <;> exact ⟨s2, rfl, he2, hf2⟩
  · rw [hr] at hs
    simp only [py, h2l, hs, outcome, Arith.updateCore, h0, ← homega, h1, hr, strategyVal, paramsVal]
    have h2next : (st.next + 1 = s2.next) = False := by simp [h2n]
    have h2next' : ∀ k, (st.next + 1 = s2.next + k) = False := by intro k; simp [h2n]; omega
    have hgl : (st.next + 1 = l) = False := by simp; omega
    have hgm : (st.next + 1 = lm) = False := by simp; omega
    have hgx : (st.next + 1 = lx) = False := by simp; omega
    have hltl2 : l < s2.next := by omega
    have hltm2 : lm < s2.next := by omega
    have hltx2 : lx < s2.next := by omega
    generalize statusVal s = vs
    by_cases hd : e.noDeferTrick = true
    · simp only [py, h2l, ha.xc, h2x, h2g, h1, h2next, h2next', lt_ne hltl2, lt_ne_add hltl2, lt_ne hltm2, lt_ne_add hltm2, lt_ne hltx2, lt_ne_add hltx2, hlm, hlx, hmx, hlm', hlx', hmx', hgl, hgx, hgm,
        ha.mq, h2m, hk, augOp_left hk', isEll_defer ha, hd, hA.lit1, Matrix.of_symm_apply]
      refine ⟨_, rfl, ⟨⟨_, lc', by simp only [py, lt_ne hltl2, lt_ne_add hltl2, hlm', hlx']; rfl, ?_, ?_⟩, ?_, ?_, ?_, ?_, ?_⟩, ?_⟩
      · refine ⟨?_, ?_, ?_, ⟨_, by simp only [py]; rfl, rfl⟩, ?_, ?_, fun a ha' => ?_⟩
        · simp only [py, ha.helper]
        · simp only [py]
        · simp only [py]
        · simp only [py]
        · simpa only [py, hd] using ha.noDefer
        · have := ha.only a ha'
          simp at ha'
          simp only [py, ha', this]
      · refine CalcAt.frame hl hmq hxc hc ?_
        repeat' (first | exact hf2 | refine Frame.alloc ?_ _ | refine Frame.put ?_ _ (.inl (by simp)))
      · simp only [py, lt_ne hltm2, lt_ne_add hltm2, hlm, hmx', h2m]; rfl
      · simp only [py, lt_ne hltx2, lt_ne_add hltx2, hlx, hmx, h2x]
      · simp only [py]; omega
      · simp only [py]; omega
      · simp only [py]; omega
      · repeat' (first | exact hf2 | refine Frame.alloc ?_ _ | refine Frame.put ?_ _ (.inl (by simp)))
    · simp only [py, h2l, ha.xc, h2x, h2g, h1, h2next, h2next', lt_ne hltl2, lt_ne_add hltl2, lt_ne hltm2, lt_ne_add hltm2, lt_ne hltx2, lt_ne_add hltx2, hlm, hlx, hmx, hlm', hlx', hmx', hgl, hgx, hgm,
        ha.mq, h2m, hk, augOp_left hk', isEll_defer ha, hd, hA.lit1, Matrix.of_symm_apply]
      refine ⟨_, rfl, ⟨⟨_, lc', by simp only [py, lt_ne hltl2, lt_ne_add hltl2, hlm', hlx']; rfl, ?_, ?_⟩, ?_, ?_, ?_, ?_, ?_⟩, ?_⟩
      · refine ⟨?_, ?_, ?_, ⟨_, by simp only [py]; rfl, rfl⟩, ?_, ?_, fun a ha' => ?_⟩
        · simp only [py, ha.helper]
        · simp only [py]
        · simp only [py]
        · simp only [py]
        · simpa only [py, hd] using ha.noDefer
        · have := ha.only a ha'
          simp at ha'
          simp only [py, ha', this]
      · refine CalcAt.frame hl hmq hxc hc ?_
        repeat' (first | exact hf2 | refine Frame.alloc ?_ _ | refine Frame.put ?_ _ (.inl (by simp)))
      · simp only [py, lt_ne hltm2, lt_ne_add hltm2, hlm, hmx', h2m]; rfl
      · simp only [py, lt_ne hltx2, lt_ne_add hltx2, hlx, hmx, h2x]
      · simp only [py]; omega
      · simp only [py]; omega
      · simp only [py]; omega
      · repeat' (first | exact hf2 | refine Frame.alloc ?_ _ | refine Frame.put ?_ _ (.inl (by simp)))

theorem ell_update_bias_cut :
    ∃ st', call (mach A ext) (fuel + 7) (.meth (.ref l) "update_bias_cut") [v] st = outcome statusVal (A.updateBiasCut e cut).2 st'
      ∧ EllAt A st' l lm lx (A.updateBiasCut e cut).1 ∧ Frame (fun k => k = l ∨ k = lm ∨ k = lx) st st' := by
  obtain ⟨attrs, lc, hl, ha, hc⟩ := he.obj
  obtain ⟨st', h1, h2, h3⟩ := ell_update_core hA (ext := ext) he hv (fuel + 4) "calc_single_or_parallel" (A.calcSingleOrParallel e.helper)
    (fun st' lc vb tsq h h' => calc_calc_single_or_parallel hA h fuel h' tsq) (lc := lc)
    (fun a h => by rw [hl] at h; simp at h; rw [← h]; exact ha.helper)
  refine ⟨st', ?_, h2, h3⟩
  have h4 : attrs "_update_core" = none := ha.only _ (by decide)
  obtain ⟨-, attrs', lh, hl', ha', -⟩ := hc
  have h5 : attrs' "calc_single_or_parallel" = none := ha'.only _ (by decide)
  rw [call_meth hl method_Ell_update_bias_cut rfl]
  simp only [Source.Ell.Ell.update_bias_cut]
  simp only [py, hl, h4, ha.helper, hl', h5, h1, Arith.updateBiasCut]

theorem ell_update_central_cut :
    ∃ st', call (mach A ext) (fuel + 5) (.meth (.ref l) "update_central_cut") [v] st = outcome statusVal (A.updateCentralCut e cut).2 st'
      ∧ EllAt A st' l lm lx (A.updateCentralCut e cut).1 ∧ Frame (fun k => k = l ∨ k = lm ∨ k = lx) st st' := by
  obtain ⟨attrs, lc, hl, ha, hc⟩ := he.obj
  obtain ⟨st', h1, h2, h3⟩ := ell_update_core hA (ext := ext) he hv (fuel + 2) "calc_single_or_parallel_central_cut" (A.calcSingleOrParallelCentralCut e.helper)
    (fun st' lc vb tsq h h' => calc_calc_single_or_parallel_central_cut hA h fuel h' tsq) (lc := lc)
    (fun a h => by rw [hl] at h; simp at h; rw [← h]; exact ha.helper)
  refine ⟨st', ?_, h2, h3⟩
  have h4 : attrs "_update_core" = none := ha.only _ (by decide)
  obtain ⟨-, attrs', lh, hl', ha', -⟩ := hc
  have h5 : attrs' "calc_single_or_parallel_central_cut" = none := ha'.only _ (by decide)
  rw [call_meth hl method_Ell_update_central_cut rfl]
  simp only [Source.Ell.Ell.update_central_cut]
  simp only [py, hl, h4, ha.helper, hl', h5, h1, Arith.updateCentralCut]

/-- A pair of offsets whose first entry is `None` is refused in two ways, depending on the sign of `tsq`; it is left out here. -/
theorem ell_update_q (hb : ∀ bs, cut.2 ≠ .seq (none :: bs)) :
    ∃ st', call (mach A ext) (fuel + 7) (.meth (.ref l) "update_q") [v] st = outcome statusVal (A.updateQ e cut).2 st'
      ∧ EllAt A st' l lm lx (A.updateQ e cut).1 ∧ Frame (fun k => k = l ∨ k = lm ∨ k = lx) st st' := by
  obtain ⟨attrs, lc, hl, ha, hc⟩ := he.obj
  obtain ⟨st', h1, h2, h3⟩ := ell_update_core hA (ext := ext) he hv (fuel + 4) "calc_single_or_parallel_q" (A.calcSingleOrParallelQ e.helper)
    (fun st' lc vb tsq h h' => calc_calc_single_or_parallel_q hA h fuel h' tsq (.inr hb)) (lc := lc)
    (fun a h => by rw [hl] at h; simp at h; rw [← h]; exact ha.helper)
  refine ⟨st', ?_, h2, h3⟩
  have h4 : attrs "_update_core" = none := ha.only _ (by decide)
  obtain ⟨-, attrs', lh, hl', ha', -⟩ := hc
  have h5 : attrs' "calc_single_or_parallel_q" = none := ha'.only _ (by decide)
  rw [call_meth hl method_Ell_update_q rfl]
  simp only [Source.Ell.Ell.update_q]
  simp only [py, hl, h4, ha.helper, hl', h5, h1, Arith.updateQ]

end core

section accessors

variable {A : Arith} {ext : ℕ → String → List Val → M W Val} {st : St W} {l lm lx : ℕ} {e : Ell n} (he : EllAt A st l lm lx e) (fuel : ℕ)
include he

/-- `xc()` returns the array itself. -/
theorem ell_xc : call (mach A ext) (fuel + 1) (.meth (.ref l) "xc") [] st = .ok (.ref lx) st := by
  obtain ⟨attrs, lc, hl, ha, hc⟩ := he.obj
  rw [call_meth hl method_Ell_xc rfl]
  simp only [Source.Ell.Ell.xc]
  simp only [py, hl, ha.xc]

theorem ell_tsq : call (mach A ext) (fuel + 1) (.meth (.ref l) "tsq") [] st = .ok (.num e.tsq) st := by
  obtain ⟨attrs, lc, hl, ha, hc⟩ := he.obj
  rw [call_meth hl method_Ell_tsq rfl]
  simp only [Source.Ell.Ell.tsq]
  simp only [py, hl, ha.tsq]

/-- `set_xc(x)` keeps the array, not a copy. -/
theorem ell_set_xc {lx' : ℕ} {x : Vec n} (hx : st.heap lx' = some (.vec n x)) (hlt : lx' < st.next) :
    ∃ st', call (mach A ext) (fuel + 1) (.meth (.ref l) "set_xc") [.ref lx'] st = .ok .none st'
      ∧ EllAt A st' l lm lx' (e.setXc x) ∧ Frame (fun k => k = l) st st' := by
  obtain ⟨attrs, lc, hl, ha, hc⟩ := he.obj
  have hm := he.mq
  have hlm : (lm = l) = False := by simp; rintro rfl; rw [hm] at hl; simp at hl
  have hlx : (lx' = l) = False := by simp; rintro rfl; rw [hx] at hl; simp at hl
  rw [call_meth hl method_Ell_set_xc rfl]
  simp only [Source.Ell.Ell.set_xc]
  simp only [py, hl]
  have hf : Frame (fun k => k = l) st (st.put l (.inst "Ell" (attrs.set "_xc" (.ref lx')))) := (Frame.refl _ _).put _ (.inl rfl)
  refine ⟨_, rfl, ⟨⟨_, lc, heap_put_self _ _, ?_, ?_⟩, ?_, ?_, he.ltl, he.ltm, hlt⟩, hf⟩
  · refine ⟨?_, ?_, ?_, ?_, ?_, ?_, fun a ha' => ?_⟩
    · simp only [py, ha.helper]
    · simp only [py, ha.mq]
    · simp only [py]
    · simpa only [py, Ell.setXc] using ha.kappa
    · simp only [py, ha.tsq]; rfl
    · simpa only [py, Ell.setXc] using ha.noDefer
    · have := ha.only a ha'
      simp at ha'
      simp only [py, ha', this]
  · exact CalcAt.frame hl hm he.xc hc ⟨hf.next, hf.world, fun k hk h => hf.same k hk fun h' => h (.inl h')⟩
  · simp only [py, hlm, hm]; rfl
  · simp only [py, hlx, hx]; rfl

end accessors

/-! ### The constructor -/

/-- What `Ell(val, x)` may be given as `val`: a float, an integer, a list of floats or an array. -/
inductive IsInit (A : Arith) (st : St W) : InitVal n → Val → Prop
  | num (k : ℝ) : IsInit A st (.scalar k) (.num k)
  | int (k : ℤ) : IsInit A st (.scalar (A.rnd k)) (.int k)
  | list (d : Vec n) : IsInit A st (.diag d) (.list (List.ofFn fun i => .num (d i)))
  | array (l : ℕ) (d : Vec n) : st.heap l = some (.vec n d) → l < st.next → IsInit A st (.diag d) (.ref l)

theorem mat_of_list {ys : List ℝ} {d : Fin n → ℝ} (h : ys = List.ofFn d) :
    Obj.mat ys.length ys.length (fun i j => if i = j then ys.get i else 0) = Obj.mat n n (fun i j => if i = j then d i else 0) := by
  have key : ∀ (m : ℕ) (z : Fin m → ℝ) (h : m = n), (∀ i, z i = d (Fin.cast h i)) →
      Obj.mat m m (fun i j => if i = j then z i else 0) = Obj.mat n n (fun i j => if i = j then d i else 0) := by
    rintro m z rfl hz
    congr; funext i j; rw [hz]; rfl
  subst h
  exact key _ _ (by simp) (fun i => by simp; rfl)

theorem floats_ofFn (A : Arith) (d : Fin n → ℝ) : floats A (List.ofFn fun i => Val.num (d i)) = some (List.ofFn d) := by
  induction n with
  | zero => rfl
  | succ n ih => rw [List.ofFn_succ, List.ofFn_succ, floats, ih]; rfl

/-- `np.diag(val)`. -/
theorem np_diag {A : Arith} {st : St W} {d : Vec n} {v : Val} (h : IsInit A st (.diag d) v) :
    builtin A "np.diag" [v] st = .ok (.ref st.next) (st.alloc (.mat n n fun i j => if i = j then d i else 0)) := by
  cases h with
  | list => simp only [builtin, bind_apply, py, iterate, floats_ofFn, mat_of_list rfl]
  | array l _ hl => simp only [builtin, bind_apply, py, hl, floats_ofFn, mat_of_list rfl]

theorem ell_init {A : Arith} (hA : Literals A) {ext : ℕ → String → List Val → M W Val} {st : St W} (fuel : ℕ) (hn : A.rnd n = n)
    {val : InitVal n} {v : Val} (hv : IsInit A st val v) {lx : ℕ} {x : Vec n} (hx : st.heap lx = some (.vec n x)) (hlt : lx < st.next) :
    ∃ st', call (mach A ext) (fuel + 3) (.glob "Ell") [v, .ref lx] st
        = (match A.ellInit val x with | .ok _ => Res.ok (.ref st.next) st' | .error e => Res.exc (excOf e) st')
      ∧ Frame (fun _ => False) st st' ∧ ∀ e, A.ellInit val x = .ok e → ∃ lm, st.next < lm ∧ EllAt A st' st.next lm lx e := by
  obtain ⟨s1, h1, hf1, hc1⟩ := calc_init hA (ext := ext) (st.alloc (.inst "Ell" Env.empty)) fuel n (by exact_mod_cast hn)
  have hf : Frame (fun _ => False) st s1 := ⟨(Nat.le_succ _).trans hf1.next, hf1.world, fun k hk h =>
    (hf1.same k (hk.trans (Nat.lt_succ_self _)) h).trans (heap_alloc_ne hk.ne _)⟩
  have hl1 : s1.heap st.next = some (.inst "Ell" Env.empty) :=
    (hf1.same st.next (Nat.lt_succ_self _) not_false).trans (heap_alloc_self _)
  have hn1 : st.next + 1 ≤ s1.next := hf1.next
  have hx1 : s1.heap lx = some (.vec n x) := (hf.same lx hlt not_false).trans hx
  rw [call_class (k := Source.Ell.Ell) (f := Source.Ell.Ell.__init__) rfl rfl rfl rfl]
  simp only [Source.Ell.Ell.__init__]
  simp only [py, hx, lt_ne hlt, h1, Arith.ellInit]
  rcases hr : A.calcInit n with e | c
  · simp only [py, hr]
    exact ⟨_, rfl, hf, nofun⟩
  have hne : (st.next = s1.next) = False := by simp; omega
  have hne' : (s1.next = st.next) = False := by simp; omega
  have hlx1 : (lx = s1.next) = False := by simp; omega
  have fin : ∀ (vk : Val) (kappa : ℝ) (m : Mat n) (o : Obj), vk.toFloat A = some kappa →
      EllAt A (((s1.put st.next o).alloc (.mat n n (Matrix.of.symm m))).put st.next (.inst "Ell"
        (((((Env.empty.set "helper" (.ref (st.next + 1))).set "_xc" (.ref lx)).set "_tsq" (.num 0)).set "_kappa" vk).set "_mq" (.ref s1.next))))
        st.next s1.next lx { mq := m, xc := x, kappa, tsq := 0, helper := c, noDeferTrick := false } := by
    intro vk kappa m o hk
    refine ⟨⟨_, st.next + 1, heap_put_self _ _, ⟨rfl, rfl, rfl, ⟨vk, rfl, hk⟩, rfl, .inr ⟨rfl, rfl⟩, fun a ha => ?_⟩, ?_⟩, ?_, ?_, ?_, ?_, ?_⟩
    · simp at ha
      simp only [py, ha]
    · refine (hc1 c hr).mono (by simp only [py]; omega) fun k hk cls attrs h1 h2 => ?_
      have : (k = st.next) = False := by simp; rintro rfl; rw [hl1] at h2; simp at h2; rcases h1 with rfl | rfl <;> simp at h2
      simp only [py, this, lt_ne hk]
    · simp only [py, hne']
    · simp only [py, lt_ne hlt, hlx1, hx1]
    all_goals simp only [py]; omega
  have hfr : ∀ o o' o'', Frame (fun _ => False) st (((s1.put st.next o).alloc o').put st.next o'') := fun o o' o'' =>
    ((hf.put _ (.inr le_rfl)).alloc _).put _ (.inr le_rfl)
  cases hv with
  | num k =>
    simp only [py, hr, hl1, hne, hA.lit0]
    refine ⟨_, rfl, hfr _ _ _, ?_⟩
    rintro _ ⟨⟩
    exact ⟨s1.next, hn1, fin _ _ 1 _ rfl⟩
  | int k =>
    simp only [py, hr, hl1, hne, hA.lit0]
    refine ⟨_, rfl, hfr _ _ _, ?_⟩
    rintro _ ⟨⟩
    exact ⟨s1.next, hn1, fin _ _ 1 _ rfl⟩
  | list d =>
    simp only [py, hr, hl1, hne, hA.lit0, hA.lit1, np_diag (IsInit.list d)]
    refine ⟨_, rfl, hfr _ _ _, ?_⟩
    rintro _ ⟨⟩
    exact ⟨s1.next, hn1, fin _ _ (Matrix.diagonal d) _ rfl⟩
  | array l d hl hlt' =>
    have hd : ∀ o, IsInit A (s1.put st.next o) (.diag d) (.ref l) := fun o =>
      .array l d ((heap_put_ne hlt'.ne _).trans ((hf.same l hlt' not_false).trans hl)) (by simp only [py]; omega)
    simp only [py, hr, hl1, hne, hA.lit0, hA.lit1, np_diag (hd _)]
    refine ⟨_, rfl, hfr _ _ _, ?_⟩
    rintro _ ⟨⟩
    exact ⟨s1.next, hn1, fin _ _ (Matrix.diagonal d) _ rfl⟩

end Ellalgo.Py
