import Verif.Props.BSearchEll
import Verif.Props.StableLoops

/-! # C109: `bsearch` with `BSearchAdaptor` and `EllStable` -/

namespace Ellalgo

open Matrix Spec CuttingPlane MeasureTheory EllStable

variable {n : ℕ} {O G D : Type*}

/-! ### Next to the run with `Ell` -/

theorem InStep.setXc {s : EllStable n} {e : Ell n} (h : InStep s e) (x : Vec n) : InStep (s.setXc x) (e.setXc x) :=
  ⟨⟨h.1.rep, rfl, h.1.kappa, h.1.tsq, h.1.helper, h.1.noDefer⟩, setXc_WF h.2.1 x, h.2.2⟩

/-- One test with `EllStable` and with `Ell`. -/
theorem assessBS_lockstep {omega : OracleFeas O (Vec n) (Cut n)} {upd : O → G → O} {I : O → Prop} (hI : ∀ o x, I o → I (omega o x).1) (hup : ∀ o γ, I o → I (upd o γ))
    (hω : ∀ o x o' cut, I o → omega o x = (o', .ok (some cut)) → UsableCut cut) (opts : Options ℝ) {o : O} (ho : I o) {s : EllStable n} {e : Ell n} (h : InStep s e) (γ : G) :
    (assessBS omega upd (EllStable.space n) ltReal opts (o, s) γ).2 = .error .zeroDivision ∨
    ((assessBS omega upd (EllStable.space n) ltReal opts (o, s) γ).2 = (assessBS omega upd (Ell.space n) ltReal opts (o, e) γ).2
      ∧ (assessBS omega upd (EllStable.space n) ltReal opts (o, s) γ).1.1 = (assessBS omega upd (Ell.space n) ltReal opts (o, e) γ).1.1
      ∧ InStep (assessBS omega upd (EllStable.space n) ltReal opts (o, s) γ).1.2 (assessBS omega upd (Ell.space n) ltReal opts (o, e) γ).1.2) := by
  have hc := C74_feas_same_outcome hI hω (upd o γ) (hup o γ ho) s e h opts
  simp only [assessBS]
  rcases h1 : feas omega (EllStable.space n) ltReal (upd o γ) s opts with ⟨o1, s1, r1⟩
  rcases h2 : feas omega (Ell.space n) ltReal (upd o γ) e opts with ⟨o2, e2, r2⟩
  rw [h1, h2] at hc
  rcases hc with ⟨rfl, -⟩ | ⟨rfl, rfl⟩
  · exact .inl rfl
  · right
    rcases r1 with f | ⟨_ | x, k⟩
    · exact ⟨rfl, rfl, h⟩
    · exact ⟨rfl, rfl, h⟩
    · exact ⟨rfl, rfl, h.setXc x⟩

theorem feas_inv {S : Type*} {omega : OracleFeas O (Vec n) (Cut n)} {I : O → Prop} (hI : ∀ o x, I o → I (omega o x).1) (sp : SearchSpace S (Vec n) (Cut n) ℝ) (o : O) (ho : I o) (s : S) (opts : Options ℝ) :
    I (feas omega sp ltReal o s opts).1 := by
  obtain ⟨l, o1, s1, ht, hend⟩ := feas_spec omega sp ltReal o s opts
  have hi : I o1 := by
    clear hend
    induction ht with
    | start => exact ho
    | @step l o1 s1 o2 s2 cut t a b c ih => have := hI o1 (sp.xc s1) ih; rw [a] at this; exact this
  have h2 := hI o1 (sp.xc s1) hi
  rcases hres : feas omega sp ltReal o s opts with ⟨o', s', res⟩
  rw [hres] at hend
  simp only at hend
  cases hend with
  | limit h => exact hi
  | found h ha => rw [ha] at h2; exact h2
  | stop h ha hu hs => rw [ha] at h2; exact h2
  | oracleRaises h ha => rw [ha] at h2; exact h2
  | updateRaises h ha hu => rw [ha] at h2; exact h2

theorem assessBS_inv {S : Type*} {omega : OracleFeas O (Vec n) (Cut n)} {upd : O → G → O} {I : O → Prop} (hI : ∀ o x, I o → I (omega o x).1) (hup : ∀ o γ, I o → I (upd o γ)) (sp : SearchSpace S (Vec n) (Cut n) ℝ)
    (opts : Options ℝ) (os : O × S) (ho : I os.1) (γ : G) : I (assessBS omega upd sp ltReal opts os γ).1.1 := by
  have h := feas_inv hI sp (upd os.1 γ) (hup _ γ ho) os.2 opts
  simp only [assessBS]
  rcases hr : feas omega sp ltReal (upd os.1 γ) os.2 opts with ⟨o1, s1, f | ⟨_ | x, k⟩⟩ <;> rw [hr] at h <;> exact h

/-- **C109, `bsearch`.** `bsearch` over `BSearchAdaptor` with `EllStable` and with `Ell`, started from the same ellipsoid with the same oracle: the same bound and number of tests (or the same exception), the same final state of the
oracle, and the same centre, unless a test with `EllStable` raises `ZeroDivisionError`. -/
theorem C109_same_outcome {omega : OracleFeas O (Vec n) (Cut n)} {upd : O → G → O} {I : O → Prop} (hI : ∀ o x, I o → I (omega o x).1) (hup : ∀ o γ, I o → I (upd o γ))
    (hω : ∀ o x o' cut, I o → omega o x = (o', .ok (some cut)) → UsableCut cut) (opts : Options ℝ) (num : BSNum G D) (o : O) (ho : I o) (s : EllStable n) (e : Ell n) (h : InStep s e) (a b : G) (maxIters : ℕ) :
    (bsearch (assessBS omega upd (EllStable.space n) ltReal opts) num (o, s) (a, b) maxIters).2.2 = .error .zeroDivision ∨
    ((bsearch (assessBS omega upd (EllStable.space n) ltReal opts) num (o, s) (a, b) maxIters).2 = (bsearch (assessBS omega upd (Ell.space n) ltReal opts) num (o, e) (a, b) maxIters).2
      ∧ (bsearch (assessBS omega upd (EllStable.space n) ltReal opts) num (o, s) (a, b) maxIters).1.1 = (bsearch (assessBS omega upd (Ell.space n) ltReal opts) num (o, e) (a, b) maxIters).1.1
      ∧ InStep (bsearch (assessBS omega upd (EllStable.space n) ltReal opts) num (o, s) (a, b) maxIters).1.2 (bsearch (assessBS omega upd (Ell.space n) ltReal opts) num (o, e) (a, b) maxIters).1.2) := by
  unfold bsearch
  generalize 0 = k
  induction maxIters generalizing k o s e a b with
  | zero => exact .inr ⟨rfl, rfl, h⟩
  | succ m ih =>
    simp only [bsearchLoop]
    by_cases hs : num.small (num.tau a b) = true
    · rw [if_pos hs, if_pos hs]
      exact .inr ⟨rfl, rfl, h⟩
    · rw [if_neg hs, if_neg hs]
      have hc := assessBS_lockstep hI hup hω opts ho h (num.mid a (num.tau a b))
      have hi := assessBS_inv hI hup (EllStable.space n) opts (o, s) ho (num.mid a (num.tau a b))
      rcases h1 : assessBS omega upd (EllStable.space n) ltReal opts (o, s) (num.mid a (num.tau a b)) with ⟨⟨o1, s1⟩, r1⟩
      rcases h2 : assessBS omega upd (Ell.space n) ltReal opts (o, e) (num.mid a (num.tau a b)) with ⟨⟨o2, e2⟩, r2⟩
      rw [h1, h2] at hc
      rw [h1] at hi
      rcases hc with rfl | ⟨rfl, rfl, h3⟩
      · exact .inl rfl
      · rcases r1 with f | _ | _
        · exact .inr ⟨rfl, rfl, h3⟩
        · exact ih _ hi _ _ h3 _ _ _
        · exact ih _ hi _ _ h3 _ _ _

/-! ### Accuracy -/

theorem EllStable.Sound.setXc {s : EllStable n} (h : s.Sound) (x : Vec n) : (s.setXc x).Sound := ⟨h.built, h.pivots, h.kappa_pos, h.defer⟩

theorem stableBound_setXc {s : EllStable n} (h : s.Sound) (x : Vec n) (F : Set (Vec n)) : stableBound (s.setXc x) F = stableBound s F := by
  obtain ⟨e, he, hreg⟩ := h.inStep
  have h2 := (he.setXc x).region_eq
  have := volBound_setXc he.2.1 x F
  unfold volBound at this
  unfold stableBound
  rw [← hreg, ← h2]
  exact this

/-- **C75 for a part of the wanted set**: the run finds a point of `W` if a part `F` of `W` of positive volume is inside the ellipsoid. -/
theorem stable_feas_part {omega : OracleFeas O (Vec n) (Cut n)} {I : O → Prop} {W F : Set (Vec n)} (hω : ProperOracle I W omega) (hFW : F ⊆ W) (o : O) (ho : I o) (s : EllStable n) (hs : s.Sound) (hF : F ⊆ s.region)
    (hv : volume F ≠ 0) (opts : Options ℝ) (htol : opts.tolerance ≤ 0) (hmax : stableBound s F < opts.maxIters) :
    ∃ o' s' x k, feas omega (EllStable.space n) ltReal o s opts = (o', s', .ok (some x, k)) ∧ x ∈ W := by
  obtain ⟨e, hin, hreg⟩ := hs.inStep
  have hb : stableBound s F = volBound e F := by unfold stableBound volBound; rw [hreg]
  rw [← hreg] at hF
  rw [hb] at hmax
  have hT := thick_of_volume hv
  obtain ⟨o', e', res, k, h1, -, h3⟩ := C73_feas_part_inside hω hFW o ho e hin.2.1 hF hv opts hmax
  obtain ⟨x, rfl, hx⟩ : ∃ x, res = some x ∧ x ∈ W := by
    rcases h3 with h3 | ⟨-, h4, h5⟩
    · exact h3
    · linarith
  rcases C74_feas_same_outcome hω.inv (fun o x o' cut hi ha => ⟨(hω.shape o x o' cut hi ha).2, (hω.cut o x o' cut hi ha).1.pair⟩)
    o ho s e hin opts with ⟨-, l, o1, e1, o2, cut, t, a, hbad⟩ | ⟨ha, hr⟩
  · exfalso
    have hω' := hω.cuts hFW
    obtain ⟨w, hF1, -⟩ := t.thick hω' hT ho hin.2.1 hF
    have hi := t.inv_oracle hω'.toCuttingOracle ho
    obtain ⟨h0, hg1⟩ := hω.shape _ _ _ _ hi a
    obtain ⟨e2, hu, w2, -⟩ := Ell.thick_bias w hT hF1 h0 hg1 (hω'.cut _ _ _ _ hi a).2
    rw [hu] at hbad
    exact hbad w2
  · rw [h1] at ha hr
    exact ⟨o', _, x, k, Prod.ext ha (Prod.ext rfl hr), hx⟩

theorem assessBS_stable {I : O → Prop} {J : ℝ → O → Prop} {F : ℝ → Set (Vec n)} {omega : OracleFeas O (Vec n) (Cut n)} {upd : O → ℝ → O}
    (hω : ParamOracle I J F omega upd) {opts : Options ℝ} (htol : opts.tolerance ≤ 0) {o : O} (ho : I o) {s : EllStable n} (hs : s.Sound) (γ : ℝ) {γs : ℝ}
    (hF : γs ≤ γ → F γs ⊆ s.region) (hv : volume (F γs) ≠ 0) (hmax : stableBound s (F γs) < opts.maxIters) {o' : O} {s' : EllStable n} {r : Except Fault Bool}
    (h : assessBS omega upd (EllStable.space n) ltReal opts (o, s) γ = ((o', s'), r)) :
    I o' ∧ (γs ≤ γ → r = .ok true) ∧ (r = .ok true → s'.xc ∈ F γ ∧ s' = s.setXc s'.xc) ∧ (r ≠ .ok true → s' = s) := by
  have hp := hω.proper γ
  have hj := hω.upd o γ ho
  have hfin := hω.back _ _ (feas_inv hp.inv (EllStable.space n) _ hj s opts)
  unfold assessBS at h
  simp only at h
  have hfind : γs ≤ γ → ∃ o' e' x k, feas omega (EllStable.space n) ltReal (upd o γ) s opts = (o', e', .ok (some x, k)) := by
    intro hγ
    obtain ⟨o', e', x, k, h1, -⟩ := stable_feas_part hp (hω.mono _ _ hγ) _ hj s hs (hF hγ) hv opts htol hmax
    exact ⟨o', e', x, k, h1⟩
  rcases hf : feas omega (EllStable.space n) ltReal (upd o γ) s opts with ⟨o1, e1, f | ⟨_ | x, k⟩⟩
  · rw [hf] at h hfin; cases h
    exact ⟨hfin, fun hγ => by obtain ⟨_, _, _, _, h1⟩ := hfind hγ; rw [hf] at h1; simp at h1, by simp, fun _ => rfl⟩
  · rw [hf] at h hfin; cases h
    exact ⟨hfin, fun hγ => by obtain ⟨_, _, _, _, h1⟩ := hfind hγ; rw [hf] at h1; simp at h1, by simp, fun _ => rfl⟩
  · rw [hf] at h hfin; cases h
    refine ⟨hfin, fun _ => rfl, fun _ => ⟨?_, rfl⟩, by simp⟩
    obtain ⟨-, -, l, o2, ht, -, ha⟩ := C20_feas_returns_accepted _ _ _ _ _ _ _ _ _ _ hf
    obtain ⟨e, he, -⟩ := hs.inStep
    obtain ⟨hi, -⟩ := ht.ofStable hp.inv (fun o x o' cut hi ha => ⟨(hp.shape o x o' cut hi ha).2, (hp.cut o x o' cut hi ha).1.pair⟩) hj he
    exact hp.accept _ _ _ hi ha

theorem bsTrace_stable {I : O → Prop} {J : ℝ → O → Prop} {F : ℝ → Set (Vec n)} {omega : OracleFeas O (Vec n) (Cut n)} {upd : O → ℝ → O}
    (hω : ParamOracle I J F omega upd) {opts : Options ℝ} (htol : opts.tolerance ≤ 0) {o : O} (ho : I o) {s : EllStable n} (hs : s.Sound)
    {lo up γs tol : ℝ} (hlo : lo ≤ γs) (hlu : lo ≤ up) (hup : F up ⊆ s.region) (hd : ∀ x ∈ F up, F up ⊆ (s.setXc x).region)
    (hv : volume (F γs) ≠ 0) (hmax : stableBound s (F γs) < opts.maxIters) {l : List (ℝ × Bool)} {os : O × EllStable n} {lo1 up1 : ℝ}
    (h : BSTrace (assessBS omega upd (EllStable.space n) ltReal opts) (BSNum.exact ℝ tol) (o, s) lo up l os lo1 up1) :
    I os.1 ∧ lo1 ≤ γs ∧ lo1 ≤ up1 ∧ up1 ≤ up ∧ os.2 = s.setXc os.2.xc ∧ F up1 ⊆ os.2.region ∧ ((up1 = up ∧ os.2 = s) ∨ os.2.xc ∈ F up1) := by
  induction h with
  | start => exact ⟨ho, hlo, hlu, le_rfl, rfl, hup, Or.inl ⟨rfl, rfl⟩⟩
  | @step l o1 o2 lo1 up1 b t h1 h2 ih =>
    obtain ⟨i1, i2, i3, i4, i5, i6, i7⟩ := ih
    obtain ⟨p1, e1⟩ := o1
    obtain ⟨p2, e2⟩ := o2
    simp only at i1 i5 i6 i7 ⊢
    set γ := (BSNum.exact ℝ tol).mid lo1 ((BSNum.exact ℝ tol).tau lo1 up1) with hγ
    obtain ⟨m1, m2⟩ := exact_mid (tol := tol) lo1 up1 i3
    have w1 : e1.Sound := by rw [i5]; exact hs.setXc _
    obtain ⟨j1, j2, j3, j4⟩ := assessBS_stable hω htol i1 w1 γ (γs := γs) (fun hg => (hω.mono _ _ (hg.trans m2)).trans i6) hv
      (by rw [i5, stableBound_setXc hs]; exact hmax) h2
    cases b
    · simp only [Bool.false_eq_true, if_false]
      rw [j4 (by simp)]
      refine ⟨j1, ?_, m2, i4, i5, i6, i7⟩
      by_contra hc
      have := j2 (not_le.mp hc).le
      simp at this
    · simp only [if_true]
      obtain ⟨k1, k2⟩ := j3 rfl
      have hx : e2 = s.setXc e2.xc := by
        rw [i5] at k2; exact k2
      refine ⟨j1, i2, m1, m2.trans i4, hx, ?_, Or.inr k1⟩
      rw [hx]
      exact (hω.mono _ _ (m2.trans i4)).trans (hd _ (hω.mono _ _ (m2.trans i4) k1))

/-- **C109, accuracy.** The bound of C81 for `EllStable`, under the same conditions; no division by zero happens in a test at `γs` or above. -/
theorem C109_stable_accuracy {I : O → Prop} {J : ℝ → O → Prop} {F : ℝ → Set (Vec n)} {omega : OracleFeas O (Vec n) (Cut n)} {upd : O → ℝ → O}
    (hω : ParamOracle I J F omega upd) (opts : Options ℝ) (htol : opts.tolerance ≤ 0) (o : O) (ho : I o) (s : EllStable n) (hs : s.Sound)
    (lo up γs tol : ℝ) (hlo : lo ≤ γs) (hlu : lo ≤ up) (hup : F up ⊆ s.region) (hd : ∀ x ∈ F up, F up ⊆ (s.setXc x).region)
    (hv : volume (F γs) ≠ 0) (hmax : stableBound s (F γs) < opts.maxIters) (maxIters : ℕ) :
    ∃ o' s' lo' r, bsearch (assessBS omega upd (EllStable.space n) ltReal opts) (BSNum.exact ℝ tol) (o, s) (lo, up) maxIters = ((o', s'), lo', r) ∧
      ((∃ u k, r = .ok (u, k) ∧ k ≤ maxIters ∧ u ≤ γs + (up - lo) / 2 ^ k ∧ (k < maxIters → u < γs + 2 * tol) ∧
          ((u = up ∧ s' = s) ∨ s'.xc ∈ F u)) ∨
        (∃ f u l o₁, r = .error f ∧ BSTrace (assessBS omega upd (EllStable.space n) ltReal opts) (BSNum.exact ℝ tol) (o, s) lo up l o₁ lo' u ∧
          assessBS omega upd (EllStable.space n) ltReal opts o₁ (lo' + (u - lo') / 2) = ((o', s'), .error f) ∧ lo' + (u - lo') / 2 < γs)) := by
  obtain ⟨l, o1, lo1, up1, ht, hend⟩ := bsearch_spec (assessBS omega upd (EllStable.space n) ltReal opts) (BSNum.exact ℝ tol) (o, s) lo up maxIters
  obtain ⟨i1, i2, i3, i4, i5, i6, i7⟩ := bsTrace_stable hω htol ho hs hlo hlu hup hd hv hmax ht
  obtain ⟨hw, -⟩ := ht.width
  rcases hres : bsearch (assessBS omega upd (EllStable.space n) ltReal opts) (BSNum.exact ℝ tol) (o, s) (lo, up) maxIters with ⟨⟨o', e'⟩, lo', r⟩
  rw [hres] at hend
  simp only at hend
  refine ⟨o', e', lo', r, rfl, ?_⟩
  generalize hoe : (o', e') = oe at hend
  cases hend with
  | limit h =>
    subst hoe
    exact Or.inl ⟨_, _, rfl, h.le, by linarith, fun h2 => absurd h h2.ne, i7⟩
  | small h hs' =>
    subst hoe
    have hs' : (up1 - lo1) / 2 < tol := by simpa [BSNum.exact] using hs'
    exact Or.inl ⟨_, _, rfl, h.le, by linarith, fun _ => by linarith, i7⟩
  | raises h ha =>
    right
    refine ⟨_, up1, l, o1, rfl, ht, hoe ▸ ha, ?_⟩
    obtain ⟨p1, e1⟩ := o1
    subst hoe
    simp only at i1 i5 i6 i7
    obtain ⟨m1, m2⟩ := exact_mid (tol := tol) lo1 up1 i3
    have w1 : e1.Sound := by rw [i5]; exact hs.setXc _
    obtain ⟨j1, j2, j3, j4⟩ := assessBS_stable hω htol i1 w1 _ (γs := γs) (fun hg => (hω.mono _ _ (hg.trans m2)).trans i6) hv
      (by rw [i5, stableBound_setXc hs]; exact hmax) ha
    by_contra hc
    have := j2 (by
      have := not_lt.mp hc
      simp only [BSNum.exact]
      linarith)
    simp at this

end Ellalgo
