import Verif.Py.Refine.Runs

/-!
# The text of `BSearchAdaptor` computes what `Model/CuttingPlane` says

`assess_bs` works on a deep copy of the search space. The copy is an ellipsoid at new locations; the ellipsoid of the adaptor stays, and if the run finds a point,
its centre becomes the array of the copy.
-/

set_option linter.unusedSimpArgs false

namespace Ellalgo.Py

open CuttingPlane

variable {W O S G : Type} {n : ℕ}

/-! ### Deep copies -/

theorem dup_low (st : St W) {k : ℕ} (hk : k < st.next) : st.dup.heap k = st.heap k := if_pos hk

theorem dup_high (st : St W) {k : ℕ} (hk : k < st.next) : st.dup.heap (k + st.next) = (st.heap k).bind (Obj.shift st.next) := by
  simp only [St.dup]
  rw [if_neg (by omega), if_pos (by omega), Nat.add_sub_cancel]

theorem dup_frame (S : ℕ → Prop) (st : St W) : Frame S st st.dup := ⟨Nat.le_add_left _ _, rfl, fun _ hk _ => dup_low st hk⟩

theorem toFloat_shift (A : Arith) (d : ℕ) (v : Val) : (v.shift d).toFloat A = v.toFloat A := by cases v <;> simp [Val.shift, Val.toFloat]

theorem isCore_shift {A : Arith} {attrs : Env} {c : EllCalcCore} (h : IsCore A attrs c) (d : ℕ) : IsCore A (fun a => (attrs a).map (Val.shift d)) c where
  nF := by obtain ⟨v, h1, h2⟩ := h.nF; exact ⟨v.shift d, by rw [h1]; rfl, (toFloat_shift A d v).trans h2⟩
  halfN := by rw [h.halfN]; rfl
  nPlus1 := by rw [h.nPlus1]; rfl
  invN := by rw [h.invN]; rfl
  nSq := by obtain ⟨v, h1, h2⟩ := h.nSq; exact ⟨v.shift d, by rw [h1]; rfl, (toFloat_shift A d v).trans h2⟩
  cst0 := by rw [h.cst0]; rfl
  cst1 := by rw [h.cst1]; rfl
  cst2 := by rw [h.cst2]; rfl
  cst3 := by rw [h.cst3]; rfl
  only a ha := by rw [h.only a ha]; rfl

theorem isCalc_shift {attrs : Env} {c : EllCalc} {lh : ℕ} (h : IsCalc attrs c lh) (d : ℕ) : IsCalc (fun a => (attrs a).map (Val.shift d)) c (lh + d) where
  nF := by rw [h.nF]; rfl
  helper := by rw [h.helper]; rfl
  parallel := by
    rcases h.parallel with h | ⟨h, h'⟩
    · exact .inl (by rw [h]; rfl)
    · exact .inr ⟨by rw [h]; rfl, h'⟩
  only a ha := by rw [h.only a ha]; rfl

theorem isEll_shift {A : Arith} {attrs : Env} {e : Ell n} {lc lm lx : ℕ} (h : IsEll A attrs e lc lm lx) (d : ℕ) :
    IsEll A (fun a => (attrs a).map (Val.shift d)) e (lc + d) (lm + d) (lx + d) where
  helper := by rw [h.helper]; rfl
  mq := by rw [h.mq]; rfl
  xc := by rw [h.xc]; rfl
  kappa := by obtain ⟨v, h1, h2⟩ := h.kappa; exact ⟨v.shift d, by rw [h1]; rfl, (toFloat_shift A d v).trans h2⟩
  tsq := by rw [h.tsq]; rfl
  noDefer := by
    rcases h.noDefer with h | ⟨h, h'⟩
    · exact .inl (by rw [h]; rfl)
    · exact .inr ⟨by rw [h]; rfl, h'⟩
  only a ha := by rw [h.only a ha]; rfl

/-- The deep copy of an ellipsoid is an ellipsoid with the same values. -/
theorem EllAt.deepcopy {A : Arith} {st : St W} {l lm lx : ℕ} {e : Ell n} (h : EllAt A st l lm lx e) :
    EllAt A st.dup (l + st.next) (lm + st.next) (lx + st.next) e := by
  obtain ⟨⟨attrs, lc, hl, ha, hltc, attrs', lh, hlc, hc, hlth, attrs'', hlh, hh⟩, hmq, hxc, hlt, hltm, hltx⟩ := h
  have hlow : ∀ k < st.next, k + st.next < st.dup.next := fun k hk => by simp only [St.dup]; omega
  refine ⟨⟨_, lc + st.next, by rw [dup_high st hlt, hl]; rfl, isEll_shift ha _, hlow _ hltc, _, lh + st.next, by rw [dup_high st hltc, hlc]; rfl, isCalc_shift hc _,
    hlow _ hlth, _, by rw [dup_high st hlth, hlh]; rfl, isCore_shift hh _⟩, by rw [dup_high st hltm, hmq]; rfl, by rw [dup_high st hltx, hxc]; rfl, hlow _ hlt, hlow _ hltm, hlow _ hltx⟩

/-- An ellipsoid is not touched by what happens to another one. -/
theorem EllAt.other {A : Arith} {st st' : St W} {l lm lx l' lm' lx' : ℕ} {e e' : Ell n} (h : EllAt A st l lm lx e) (h' : EllAt A st l' lm' lx' e')
    (hl : l ≠ l') (hm : lm ≠ lm') (hx : lx ≠ lx') (hf : Frame (fun k => k = l' ∨ k = lm' ∨ k = lx') st st') : EllAt A st' l lm lx e := by
  obtain ⟨⟨attrs, lc, hl1, ha, hc⟩, hmq, hxc, hlt, hltm, hltx⟩ := h
  obtain ⟨⟨attrs', lc', hl1', ha', hc'⟩, hmq', hxc', -, -, -⟩ := h'
  refine ⟨⟨attrs, lc, (hf.same l hlt ?_).trans hl1, ha, CalcAt.frame hl1' hmq' hxc' hc hf⟩, (hf.same lm hltm ?_).trans hmq, (hf.same lx hltx ?_).trans hxc, hlt.trans_le hf.next, hltm.trans_le hf.next,
    hltx.trans_le hf.next⟩
  · rintro (rfl | rfl | rfl)
    · exact hl rfl
    · rw [hmq'] at hl1; simp at hl1
    · rw [hxc'] at hl1; simp at hl1
  · rintro (rfl | rfl | rfl)
    · rw [hl1'] at hmq; simp at hmq
    · exact hm rfl
    · rw [hxc'] at hmq; simp at hmq
  · rintro (rfl | rfl | rfl)
    · rw [hl1'] at hxc; simp at hxc
    · rw [hmq'] at hxc; simp at hxc
    · exact hx rfl

/-! ### The adaptor -/

/-- The attributes of a `BSearchAdaptor`. -/
structure IsAdaptor (attrs : Env) (vo vs vopt : Val) : Prop where
  omega : attrs "omega" = some vo
  space : attrs "space" = some vs
  options : attrs "options" = some vopt
  only : ∀ a ∉ ["omega", "space", "options"], attrs a = none

/-- A location with a `BSearchAdaptor`. -/
def AdaptorAt (st : St W) (la : ℕ) (vo vs vopt : Val) : Prop := la < st.next ∧ ∃ attrs, st.heap la = some (.inst "BSearchAdaptor" attrs) ∧ IsAdaptor attrs vo vs vopt

theorem AdaptorAt.mono {st st' : St W} {la : ℕ} {vo vs vopt : Val} (h : AdaptorAt st la vo vs vopt) (hn : st.next ≤ st'.next)
    (hs : ∀ attrs, st.heap la = some (.inst "BSearchAdaptor" attrs) → st'.heap la = st.heap la) : AdaptorAt st' la vo vs vopt := by
  obtain ⟨hlt, attrs, hl, ha⟩ := h
  exact ⟨hlt.trans_le hn, attrs, (hs attrs hl).trans hl, ha⟩

/-- A feasibility oracle with a method `update` (which is called one level up from `assess_feas`). -/
structure ParamOracle (A : Arith) (ext : ℕ → String → List Val → M W Val) (fuel : ℕ) (vo : Val) (own : St W → ℕ → Prop) (omega : OracleFeas O (Vec n) (Cut n)) (upd : O → G → O) (gv : G → Val)
    (Q : St W → O → Prop) (free : Prop := True) : Prop extends FeasOracle A ext fuel vo own omega Q free where
  hasUpdate : ∀ {st o}, Q st o → Has (mach A ext) vo "update" st
  update : ∀ {st o} g, Q st o → ∃ v st', call (mach A ext) (fuel + 1) (.meth vo "update") [gv g] st = .ok v st' ∧ Q st' (upd o g) ∧ Moves own st st'

/-- The state of an adaptor at `la` with an ellipsoid at `l`: the oracle and the ellipsoid. `v2` are the options of the caller. Since `st0`, of the locations that were in use only `l` and those of the oracle have changed. -/
structure Adapted (A : Arith) (own : St W → ℕ → Prop) (Q : St W → O → Prop) (la l : ℕ) (vo vopt v2 : Val) (opts opts2 : Options ℝ) (st0 : St W) (st : St W) (os : O × Ell n) : Prop where
  ell : ∃ lm lx, EllAt A st l lm lx os.2 ∧ (∀ k, k = l ∨ k = lm ∨ k = lx → ¬ own st k)
  oracle : Q st os.1
  options : OptionsAt A st vopt opts
  options2 : OptionsAt A st v2 opts2
  adaptor : AdaptorAt st la vo (.ref l) vopt
  optlt : ∀ k, vopt = .ref k → k < st.next
  optlt2 : ∀ k, v2 = .ref k → k < st.next
  since : Since own (fun k => k = l) st0 st

/-- What stays during the run on the copy. -/
structure Aside (A : Arith) (la l lm lx : ℕ) (vo vopt v2 : Val) (opts2 : Options ℝ) (e : Ell n) (st : St W) : Prop where
  ell : EllAt A st l lm lx e
  options2 : OptionsAt A st v2 opts2
  adaptor : AdaptorAt st la vo (.ref l) vopt
  optlt2 : ∀ k, v2 = .ref k → k < st.next

theorem EllAt.stable {A : Arith} {st st' : St W} {l lm lx : ℕ} {e : Ell n} (h : EllAt A st l lm lx e) (hn : st.next ≤ st'.next)
    (hs : ∀ k < st.next, ((k = l ∨ k = lm ∨ k = lx) ∨ ∃ cls attrs, cls ∈ spaceClasses ∧ st.heap k = some (.inst cls attrs)) → st'.heap k = st.heap k) : EllAt A st' l lm lx e := by
  obtain ⟨⟨attrs, lc, hl, ha, hc⟩, hmq, hxc, hlt, hltm, hltx⟩ := h
  refine ⟨⟨attrs, lc, (hs l hlt (.inl (.inl rfl))).trans hl, ha, hc.mono hn fun k hk cls attrs h1 h2 => hs k hk (.inr ⟨cls, attrs, ?_, h2⟩)⟩, ?_, ?_, hlt.trans_le hn, hltm.trans_le hn, hltx.trans_le hn⟩
  · rcases h1 with rfl | rfl <;> simp [spaceClasses]
  · exact (hs lm hltm (.inl (.inr (.inl rfl)))).trans hmq
  · exact (hs lx hltx (.inl (.inr (.inr rfl)))).trans hxc

theorem Aside.stable {A : Arith} {la l lm lx : ℕ} {vo vopt v2 : Val} {opts2 : Options ℝ} {e : Ell n} {st st' : St W} (h : Aside A la l lm lx vo vopt v2 opts2 e st) (hn : st.next ≤ st'.next)
    (hs : ∀ k < st.next, ((k = l ∨ k = lm ∨ k = lx) ∨ ∃ cls attrs, cls ∈ spaceClasses ∧ st.heap k = some (.inst cls attrs)) → st'.heap k = st.heap k) :
    Aside A la l lm lx vo vopt v2 opts2 e st' where
  ell := h.ell.stable hn hs
  options2 := h.options2.mono fun k attrs hk hh => hs k (h.optlt2 k hk) (.inr ⟨_, attrs, by simp [spaceClasses], hh⟩)
  adaptor := h.adaptor.mono hn fun attrs hh => hs la h.adaptor.1 (.inr ⟨_, attrs, by simp [spaceClasses], hh⟩)
  optlt2 k hk := (h.optlt2 k hk).trans_le hn

/-- Work on another ellipsoid. -/
theorem Aside.frame {A : Arith} {la l lm lx l' lm' lx' : ℕ} {vo vopt v2 : Val} {opts2 : Options ℝ} {e e' : Ell n} {st st' : St W} (h : Aside A la l lm lx vo vopt v2 opts2 e st)
    (h' : EllAt A st l' lm' lx' e') (hl : l ≠ l') (hm : lm ≠ lm') (hx : lx ≠ lx') (hf : Frame (fun k => k = l' ∨ k = lm' ∨ k = lx') st st') :
    Aside A la l lm lx vo vopt v2 opts2 e st' := by
  obtain ⟨attrs', lc', hl1', -, -⟩ := h'.obj
  refine ⟨h.ell.other h' hl hm hx hf, h.options2.mono fun k attrs hk hh => hf.same k (h.optlt2 k hk) ?_, h.adaptor.mono hf.next fun attrs hh => hf.same la h.adaptor.1 ?_, fun k hk => (h.optlt2 k hk).trans_le hf.next⟩
  · rintro (rfl | rfl | rfl)
    · rw [hl1'] at hh; simp at hh
    · rw [h'.mq] at hh; simp at hh
    · rw [h'.xc] at hh; simp at hh
  · rintro (rfl | rfl | rfl)
    · rw [hl1'] at hh; simp at hh
    · rw [h'.mq] at hh; simp at hh
    · rw [h'.xc] at hh; simp at hh

/-- The copy as a search space, with everything that must stay. -/
theorem copy_space {A : Arith} (hA : Literals A) (ext : ℕ → String → List Val → M W Val) (fuel : ℕ) {la l lm lx l' lm' lx' : ℕ} (hl : l ≠ l') (hm : lm ≠ lm') (hx : lx ≠ lx')
    (vo vopt v2 : Val) (opts2 : Options ℝ) (e0 : Ell n) :
    SpaceAt A ext (fuel + 7) (.ref l') (fun k => (k = l' ∨ k = lm' ∨ k = lx') ∨ k = l ∨ k = lm ∨ k = lx) (A.space n)
      (fun st e => EllAt A st l' lm' lx' e ∧ Aside A la l lm lx vo vopt v2 opts2 e0 st) := by
  have h1 := ell_space (n := n) hA ext fuel l' lm' lx' (free := True)
  have h2 := ell_space (n := n) hA ext fuel l lm lx (free := True)
  have up : ∀ {st st' : St W}, Frame (fun k => k = l' ∨ k = lm' ∨ k = lx') st st' → Frame (fun k => (k = l' ∨ k = lm' ∨ k = lx') ∨ k = l ∨ k = lm ∨ k = lx) st st' :=
    fun hf => ⟨hf.next, hf.world, fun k hk hc => hf.same k hk fun h => hc (.inl h)⟩
  exact {
    bound := fun h k hk => hk.elim (h1.bound h.1 k) (h2.bound h.2.ell k)
    noOptions := fun h k hk => hk.elim (h1.noOptions h.1 k) (h2.noOptions h.2.ell k)
    stable := fun h hn hs => ⟨h1.stable h.1 hn fun k hk hc => hs k hk (hc.imp_left .inl), h.2.stable hn fun k hk hc => hs k hk (hc.imp_left .inr)⟩
    has := fun h => h1.has h.1
    xc := fun h => by
      obtain ⟨lx, h3, h4, h5, h6⟩ := h1.xc h.1
      exact ⟨lx, h3, h4, h5, .inl h6⟩
    tsq := fun h => h1.tsq h.1
    bias := fun h hc _ => by
      obtain ⟨st', h3, h4, h5⟩ := h1.bias h.1 hc (.inl trivial)
      exact ⟨st', h3, ⟨h4, h.2.frame h.1 hl hm hx h5⟩, up h5⟩
    central := fun h hc _ => by
      obtain ⟨st', h3, h4, h5⟩ := h1.central h.1 hc (.inl trivial)
      exact ⟨st', h3, ⟨h4, h.2.frame h.1 hl hm hx h5⟩, up h5⟩
    q := fun h hc _ hb => by
      obtain ⟨st', h3, h4, h5⟩ := h1.q h.1 hc (.inl trivial) hb
      exact ⟨st', h3, ⟨h4, h.2.frame h.1 hl hm hx h5⟩, up h5⟩ }

/-- After the run on the copy. -/
theorem since_assess {A : Arith} {own : St W → ℕ → Prop} {st0 st s3 : St W} {l lm lx : ℕ} {e : Ell n} (h : Since own (fun k => k = l) st0 st) (he : EllAt A st l lm lx e)
    (h3 : Since own (fun k => (k = l + st.next ∨ k = lm + st.next ∨ k = lx + st.next) ∨ k = l ∨ k = lm ∨ k = lx) st.dup s3) (he3 : EllAt A s3 l lm lx e)
    (hap : ∀ k, ((k = l + st.next ∨ k = lm + st.next ∨ k = lx + st.next) ∨ k = l ∨ k = lm ∨ k = lx) → ¬ own s3 k) (hown : ∀ k, own st.dup k → own st k) : Since own (fun k => k = l) st0 s3 := by
  refine ⟨h.next.trans ((Nat.le_add_left _ _).trans h3.next), fun k hk hl ho => ?_⟩
  obtain ⟨h1, h2⟩ := h.same k hk hl ho
  have hk' := hk.trans_le h.next
  by_cases hc : k = l ∨ k = lm ∨ k = lx
  · refine ⟨?_, hap k (.inr hc)⟩
    rw [← h1]
    rcases hc with hc | rfl | rfl
    · exact absurd hc hl
    · rw [he.mq, he3.mq]
    · rw [he.xc, he3.xc]
  · obtain ⟨h4, h5⟩ := h3.same k (hk'.trans_le (Nat.le_add_left _ _)) (by rintro (hh | hh); · omega
                                                                          · exact hc hh) fun ho' => h2 (hown k ho')
    exact ⟨h4.trans ((dup_low st hk').trans h1), h5⟩

section

variable {A : Arith} (hA : Literals A) {ext : ℕ → String → List Val → M W Val} {fuel : ℕ} {vo vopt v2 : Val} {own : St W → ℕ → Prop} {omega : OracleFeas O (Vec n) (Cut n)} {upd : O → G → O} {gv : G → Val}
  {Q : St W → O → Prop} {opts opts2 : Options ℝ} {la l : ℕ} {st0 : St W} (hQ : ParamOracle A ext (fuel + 7) vo own omega upd gv Q)
include hA hQ

/-- `adaptor.assess_bs(gamma)`. -/
theorem adaptor_assess_bs {st : St W} {os : O × Ell n} (h : Adapted A own Q la l vo vopt v2 opts opts2 st0 st os) (g : G) :
    match assessBS omega upd (A.space n) ltReal opts os g with
    | (os', .error f) => ∃ st', call (mach A ext) (fuel + 9) (.meth (.ref la) "assess_bs") [gv g] st = .exc (excOf f) st' ∧ Adapted A own Q la l vo vopt v2 opts opts2 st0 st' os'
    | (os', .ok b) => ∃ st', call (mach A ext) (fuel + 9) (.meth (.ref la) "assess_bs") [gv g] st = .ok (.bool b) st' ∧ Adapted A own Q la l vo vopt v2 opts opts2 st0 st' os' := by
  obtain ⟨o, e⟩ := os
  obtain ⟨⟨lm, lx, he, hap⟩, hq, hopt, hopt2, had, holt, holt2, hsince⟩ := h
  dsimp only at he hq
  set N := st.next with hN
  -- the deep copy
  have hecopy := he.deepcopy
  have hdup := dup_frame (fun k => ¬ own st k) st
  obtain ⟨hq1, hown1⟩ := hQ.stable hq hdup
  have hside1 : Aside A la l lm lx vo vopt v2 opts2 e st.dup := Aside.stable ⟨he, hopt2, had, holt2⟩ hdup.next fun k hk _ => dup_low st hk
  have hopt1 : OptionsAt A st.dup vopt opts := hopt.mono fun k attrs hk _ => dup_low st (holt k hk)
  set s1 := st.dup with hd1
  have hs1 : s1.next = N + N := rfl
  -- `omega.update(gamma)`
  have hsp := copy_space (n := n) hA ext fuel (la := la) (l := l) (lm := lm) (lx := lx) (l' := l + N) (lm' := lm + N) (lx' := lx + N)
    (by have := he.ltl; omega) (by have := he.ltm; omega) (by have := he.ltx; omega) vo vopt v2 opts2 e
  have hrun1 : Running (n := n) A (fun _ => False) own own (fun k => (k = l + N ∨ k = lm + N ∨ k = lx + N) ∨ k = l ∨ k = lm ∨ k = lx)
      (fun st e' => EllAt A st (l + N) (lm + N) (lx + N) e' ∧ Aside A la l lm lx vo vopt v2 opts2 e st) Q vopt opts s1 s1 o e none .none := by
    refine ⟨⟨hecopy, hside1⟩, hq1, hopt1, fun k hk ho => ?_, rfl, fun k hk => (holt k hk).trans_le hdup.next, .refl _ _ _⟩
    rcases hk with hk | hk
    · have := hQ.bound hq k (hown1 k ho); omega
    · exact hap k hk (hown1 k ho)
  obtain ⟨vu, s2, h2, hq2, hm2⟩ := hQ.update g hq1
  have hrun2 := hrun1.moves hsp hQ.toOracleAt hq2 hm2 hm2
  -- the run
  have hfeas := call_feas (fuel := fuel + 6) (Running.sim A ext (fuel + 7) (.ref (l + N)) vopt _ (fun _ => False) own own _ Q opts s1 hsp) (Running.feasSim A ext (fuel + 7) (.ref (l + N)) vo vopt _ _ own _ Q opts s1 hsp hQ.toFeasOracle)
    (Running.biasSim A ext (fuel + 7) (.ref (l + N)) vopt _ _ own _ Q opts s1 hsp hQ.toOracleAt) hrun2
  obtain ⟨halt, attrs, hla, hat⟩ := had
  have h1la : s1.heap la = some (.inst "BSearchAdaptor" attrs) := (dup_low st halt).trans hla
  obtain ⟨-, attrs2, h2la, hat2⟩ := hrun2.space.2.adaptor
  rw [call_meth hla method_BSearchAdaptor_assess_bs rfl]
  simp only [Source.CuttingPlane.BSearchAdaptor.assess_bs]
  simp only [py, hla, hat.space, h1la, hat.omega, Val.shift, ← hd1, ← hN, hQ.hasUpdate hq1 _, h2, h2la, hat2.omega, hat2.options]
  simp only [assessBS]
  rcases hres : feas omega (A.space n) ltReal (upd o g) e opts with ⟨o3, e3, f | ⟨_ | x, k⟩⟩ <;> rw [hres] at hfeas <;> simp only [FeasOutcome] at hfeas
  · obtain ⟨s3, h3, hrun3⟩ := hfeas
    have hsince3 := since_assess hsince he hrun3.since hrun3.space.2.ell hrun3.apart hown1
    simp only [py, h3]
    exact ⟨_, rfl, ⟨lm, lx, hrun3.space.2.ell, fun k hk => hrun3.apart k (.inr hk)⟩, hrun3.oracle, hrun3.options, hrun3.space.2.options2, hrun3.space.2.adaptor, hrun3.optlt, hrun3.space.2.optlt2, hsince3⟩
  · obtain ⟨s3, h3, hrun3⟩ := hfeas
    have hsince3 := since_assess hsince he hrun3.since hrun3.space.2.ell hrun3.apart hown1
    simp only [py, h3]
    exact ⟨_, rfl, ⟨lm, lx, hrun3.space.2.ell, fun k hk => hrun3.apart k (.inr hk)⟩, hrun3.oracle, hrun3.options, hrun3.space.2.options2, hrun3.space.2.adaptor, hrun3.optlt, hrun3.space.2.optlt2, hsince3⟩
  · obtain ⟨v, s3, h3, ⟨lp, rfl, hlp, hlpx, hlpc⟩, hrun3⟩ := hfeas
    have hsince3 := since_assess hsince he hrun3.since hrun3.space.2.ell hrun3.apart hown1
    obtain ⟨-, attrs3, h3la, hat3⟩ := hrun3.space.2.adaptor
    obtain ⟨attrs4, lc4, hl4, ha4, -⟩ := hrun3.space.2.ell.obj
    have hno : attrs4 "set_xc" = none := ha4.only _ (by decide)
    obtain ⟨s4, h4, he4, hf4⟩ := ell_set_xc (ext := ext) hrun3.space.2.ell (fuel + 7) hlpx hlp
    simp only [py, h3, h3la, hat3.space, hl4, hno, h4]
    obtain ⟨hq4, hown4⟩ := hQ.stable hrun3.oracle (st' := s4) ⟨hf4.next, hf4.world, fun k hk ho => hf4.same k hk fun hkl => ho fun ho' => hrun3.apart k (.inr (.inl hkl)) ho'⟩
    refine ⟨_, rfl, ⟨lm, lp, he4, fun k hk ho => ?_⟩, hq4, hrun3.options.mono fun k attrs hk hh => hf4.same k (hrun3.optlt k hk) fun hkl => ?_, hrun3.space.2.options2.mono fun k attrs hk hh => hf4.same k (hrun3.space.2.optlt2 k hk) fun hkl => ?_,
      hrun3.space.2.adaptor.mono hf4.next fun attrs hh => hf4.same la hrun3.space.2.adaptor.1 fun hkl => ?_, fun k hk => (hrun3.optlt k hk).trans_le hf4.next, fun k hk => (hrun3.space.2.optlt2 k hk).trans_le hf4.next, hsince3.frame hf4 hown4⟩
    · have ho := hown4 k ho
      rcases hk with hk | hk | hk
      · exact hrun3.apart k (.inr (.inl hk)) ho
      · exact hrun3.apart k (.inr (.inr (.inl hk))) ho
      · exact hrun3.apart k (hk ▸ hlpc) ho
    · rw [hkl, hl4] at hh; simp at hh
    · rw [hkl, hl4] at hh; simp at hh
    · rw [hkl, hl4] at hh; simp at hh

/-- The adaptor as an oracle of `bsearch`. -/
theorem adaptor_sim : BSSim A ext (fuel + 9) (.ref la) v2 (assessBS omega upd (A.space n) ltReal opts) opts2 (Adapted (n := n) A own Q la l vo vopt v2 opts opts2 st0) gv where
  options h := h.options2
  has h cl := by
    obtain ⟨-, attrs, hl, ha⟩ := h.adaptor
    have := ha.only "assess_bs" (by decide)
    simp only [py, hl, this]
  assess {st os} g h := by
    have hh := adaptor_assess_bs hA hQ h g
    rcases hr : assessBS omega upd (A.space n) ltReal opts os g with ⟨os', f | b⟩ <;> rw [hr] at hh <;> dsimp only at hh ⊢
    · exact hh
    · obtain ⟨st', h1, h2⟩ := hh
      exact ⟨_, st', h1, h2, fun _ => rfl⟩

end

/-- `BSearchAdaptor(omega, space, options)`. -/
theorem adaptor_init (A : Arith) (ext : ℕ → String → List Val → M W Val) (fuel : ℕ) (st : St W) (vo vs vopt : Val) :
    ∃ st', call (mach A ext) (fuel + 1) (.glob "BSearchAdaptor") [vo, vs, vopt] st = .ok (.ref st.next) st' ∧ AdaptorAt st' st.next vo vs vopt ∧ Frame (fun _ => False) st st' ∧ st'.next = st.next + 1 := by
  rw [call_class (k := Source.CuttingPlane.BSearchAdaptor) (f := Source.CuttingPlane.BSearchAdaptor.__init__) rfl rfl rfl rfl]
  simp only [Source.CuttingPlane.BSearchAdaptor.__init__]
  simp only [py]
  refine ⟨_, rfl, ⟨Nat.lt_succ_self _, _, heap_put_self _ _, ⟨rfl, rfl, rfl, fun a ha => ?_⟩⟩, ⟨Nat.le_succ _, rfl, fun k hk _ => ?_⟩, rfl⟩
  · simp at ha
    simp only [py, ha]
  · simp only [py, lt_ne hk]

/-- `adaptor.x_best` is the array of the centre itself. -/
theorem adaptor_x_best {A : Arith} {ext : ℕ → String → List Val → M W Val} {la l lm lx : ℕ} {vo vopt : Val} {st : St W} {e : Ell n}
    (h : AdaptorAt st la vo (.ref l) vopt) (he : EllAt A st l lm lx e) (fuel : ℕ) :
    getAttr (mach A ext) (call (mach A ext) (fuel + 2)) (.ref la) "x_best" st = .ok (.ref lx) st := by
  obtain ⟨-, attrs, hl, ha⟩ := h
  obtain ⟨attrs', lc, hl', ha', -⟩ := he.obj
  have h1 := ha.only "x_best" (by decide)
  have h2 : attrs' "xc" = none := ha'.only "xc" (by decide)
  have hc : call (mach A ext) (fuel + 2) (.meth (.ref la) "x_best") [] st = .ok (.ref lx) st := by
    rw [call_meth hl method_BSearchAdaptor_x_best rfl]
    simp only [Source.CuttingPlane.BSearchAdaptor.x_best]
    simp only [py, hl, ha.space, hl', h2, ell_xc he fuel]
  simp only [py, hl, h1]
  exact hc

end Ellalgo.Py
