import Verif.Lemmas.Weak
import Verif.Props.Loops
import Verif.Props.Containment
import Verif.Model.EllSpace

/-! # C22, C26: verdicts of the cutting-plane loops with `Ell` are sound -/

namespace Ellalgo

open Matrix Spec CuttingPlane

variable {n : ℕ} {O G : Type*}

theorem ltReal_iff {a b : ℝ} : ltReal a b = true ↔ a < b := by simp [ltReal]

theorem ltReal_false {a b : ℝ} : ltReal a b = false ↔ b ≤ a := by simp [ltReal]

/-! ### C22 -/

theorem FeasTrace.inv_oracle {omega : OracleFeas O (Vec n) (Cut n)} {I : O → Prop} {F : Set (Vec n)}
    (hω : CuttingOracle I F omega) {S : Type*} {sp : SearchSpace S (Vec n) (Cut n) ℝ} {lt tol} {o : O} {e : S}
    (ho : I o) {l o' e'} (h : FeasTrace omega sp lt tol o e l o' e') : I o' := by
  induction h with
  | start => exact ho
  | @step _ _ s1 _ _ _ t a _ _ ih => have := hω.inv _ (sp.xc s1) ih; rw [a] at this; exact this

theorem FeasTrace.weak {omega : OracleFeas O (Vec n) (Cut n)} {I : O → Prop} {F : Set (Vec n)}
    (hω : CuttingOracle I F omega) (hne : F.Nonempty) {lt tol} {o : O} {e : Ell n} (ho : I o) (he : e.Weak)
    (hF : F ⊆ e.hull) {l o' e'} (h : FeasTrace omega (Ell.space n) lt tol o e l o' e') :
    e'.Weak ∧ F ⊆ e'.hull := by
  induction h with
  | start => exact ⟨he, hF⟩
  | step t a b _ ih =>
    obtain ⟨h0, hk⟩ := hω.cut _ _ _ _ (t.inv_oracle hω ho) a
    obtain ⟨h1, h2, -⟩ := Ell.weak_bias ih.1 ih.2 hne h0 hk b
    exact ⟨h1, h2⟩

/-- **C22.** With a separating oracle for `F` and `F` inside the initial ellipsoid:
* after any number of iterations `F` is inside the current ellipsoid;
* if the run then consults the oracle and the update with its cut returns `NoSoln`, `F` is empty;
* hence, if `F` is not empty and `cutting_plane_feas` returns `(None, k)`, it ran into the iteration limit, `tsq` fell below the
  tolerance, or the gradient was in the kernel of a degenerate ellipsoid (`NoEffect`); and if it returns a point, the point is in `F`. -/
theorem C22_infeasibility_sound {omega : OracleFeas O (Vec n) (Cut n)} {I : O → Prop} {F : Set (Vec n)}
    (hω : SeparatingOracle I F omega) (o : O) (ho : I o) (e : Ell n) (he : e.WF) (hF : F ⊆ e.region)
    (opts : Options ℝ) :
    (∀ l o1 e1, FeasTrace omega (Ell.space n) ltReal opts.tolerance o e l o1 e1 → F ⊆ e1.hull) ∧
    (∀ l o1 e1 o2 cut e2, FeasTrace omega (Ell.space n) ltReal opts.tolerance o e l o1 e1 →
      omega o1 e1.xc = (o2, .ok (some cut)) → e1.updateBiasCut cut = (e2, .ok .noSoln) → F = ∅) ∧
    (∀ o' e' k, F.Nonempty → feas omega (Ell.space n) ltReal o e opts = (o', e', .ok (none, k)) →
      k = opts.maxIters ∨ e'.tsq < opts.tolerance ∨
      ∃ l o1 e1 cut, FeasTrace omega (Ell.space n) ltReal opts.tolerance o e l o1 e1 ∧
        omega o1 (Ell.xc e1) = (o', .ok (some cut)) ∧ e1.updateBiasCut cut = (e', .ok .noEffect)) ∧
    (∀ o' e' x k, feas omega (Ell.space n) ltReal o e opts = (o', e', .ok (some x, k)) → x ∈ F) := by
  rw [he.region_eq_hull] at hF
  have hsound : ∀ l o1 e1 o2 cut e2 st, FeasTrace omega (Ell.space n) ltReal opts.tolerance o e l o1 e1 →
      F.Nonempty → omega o1 e1.xc = (o2, .ok (some cut)) → e1.updateBiasCut cut = (e2, .ok st) →
      st = .success ∨ st = .noEffect := by
    intro l o1 e1 o2 cut e2 st h hne hc hu
    obtain ⟨w, hF1⟩ := h.weak hω.toCuttingOracle hne ho he.weak hF
    obtain ⟨h0, hk⟩ := hω.cut _ _ _ _ (h.inv_oracle hω.toCuttingOracle ho) hc
    exact (Ell.weak_bias w hF1 hne h0 hk hu).2.2
  refine ⟨?_, ?_, ?_, ?_⟩
  · intro l o1 e1 h
    rcases F.eq_empty_or_nonempty with rfl | hne
    · exact Set.empty_subset _
    · exact (h.weak hω.toCuttingOracle hne ho he.weak hF).2
  · intro l o1 e1 o2 cut e2 h hc hu
    by_contra hne
    have := hsound l o1 e1 o2 cut e2 _ h (Set.nonempty_iff_ne_empty.mpr hne) hc hu
    simp at this
  · intro o' e' k hne h
    obtain ⟨l, o1, e1, ht, -, ⟨hk, -⟩ | ⟨-, cut, st, h1, h2, h3⟩⟩ :=
      C21_feas_gives_up_for_a_reason omega (Ell.space n) ltReal o e opts o' e' k h
    · exact .inl hk
    · right
      rcases h3 with h3 | h3
      · rcases hsound l o1 e1 o' cut e' st ht hne h1 h2 with rfl | rfl
        · exact absurd rfl h3
        · exact .inr ⟨l, o1, e1, cut, ht, h1, h2⟩
      · exact .inl (ltReal_iff.mp h3)
  · intro o' e' x k h
    obtain ⟨-, -, l, o1, ht, -, ha⟩ := C20_feas_returns_accepted omega (Ell.space n) ltReal o e opts o' e' x k h
    exact hω.accept _ _ _ (ht.inv_oracle hω.toCuttingOracle ho) ha

theorem CuttingOracle.mono {omega : OracleFeas O (Vec n) (Cut n)} {I : O → Prop} {F F' : Set (Vec n)}
    (hω : CuttingOracle I F omega) (h : F' ⊆ F) : CuttingOracle I F' omega :=
  ⟨hω.inv, fun o x o' cut ho ha => ⟨(hω.cut o x o' cut ho ha).1, h.trans (hω.cut o x o' cut ho ha).2⟩⟩

/-- **C22 for sets that are not inside the initial ellipsoid.** If a run from the ellipsoid `e` with an oracle whose cuts are valid for `F` ends with `NoSoln`, no point of `F` lies in the
initial ellipsoid. -/
theorem C22_noSoln_inside {omega : OracleFeas O (Vec n) (Cut n)} {I : O → Prop} {F : Set (Vec n)}
    (hω : CuttingOracle I F omega) (o : O) (ho : I o) (e : Ell n) (he : e.WF) (tol : ℝ)
    {l o1 e1 o2 cut e2} (ht : FeasTrace omega (Ell.space n) ltReal tol o e l o1 e1)
    (ha : omega o1 (Ell.xc e1) = (o2, .ok (some cut))) (hu : e1.updateBiasCut cut = (e2, .ok .noSoln)) :
    F ∩ e.region = ∅ := by
  by_contra hne
  have hω' := hω.mono (F' := F ∩ e.region) Set.inter_subset_left
  have hne' := Set.nonempty_iff_ne_empty.mpr hne
  obtain ⟨w, hF1⟩ := ht.weak hω' hne' ho he.weak (by rw [← he.region_eq_hull]; exact Set.inter_subset_right)
  obtain ⟨h0, hk⟩ := hω'.cut _ _ _ _ (ht.inv_oracle hω' ho) ha
  have := (Ell.weak_bias w hF1 hne' h0 hk hu).2.2
  simp at this

/-- A separating oracle for the half plane `x₀ ≤ -3` (state: unit). -/
noncomputable def farOracle : OracleFeas Unit (Vec 2) (Cut 2) := by
  classical
  exact fun _ x => ((), .ok (if x 0 ≤ -3 then none else some (![1, 0], .scalar (x 0 + 3))))

theorem farOracle_separating : SeparatingOracle (fun _ => True) {x : Vec 2 | x 0 ≤ -3} farOracle where
  inv _ _ _ := trivial
  cut o x o' cut _ h := by
    unfold farOracle at h
    split_ifs at h with h0
    · simp at h
    · simp only [Prod.mk.injEq, Except.ok.injEq, Option.some.injEq, true_and] at h
      subst h
      refine ⟨?_, fun y hy => ?_⟩
      · show 0 ≤ x 0 + 3; linarith [not_le.mp h0]
      · have hy' : y 0 ≤ -3 := hy
        simp only [keptSet, CutChoice.keeps, Set.mem_ofPred_eq]
        simp [dotProduct, Fin.sum_univ_two]
        linarith
  accept o x o' _ h := by
    unfold farOracle at h
    split_ifs at h with h0
    · exact h0
    · simp at h

/-- C22 applies to an empty problem: the part of the half plane `x₀ ≤ -3` inside the unit disc; the very first cut returns `NoSoln`. -/
example : SeparatingOracle (fun _ => True) ({x : Vec 2 | x 0 ≤ -3} ∩ unitDisc.region)
      (fun o x => ((farOracle o x).1, match (farOracle o x).2 with
        | .ok none => .error .oracle
        | r => r)) ∧
    ∃ e', unitDisc.updateBiasCut (![1, 0], .scalar (unitDisc.xc 0 + 3)) = (e', .ok .noSoln) := by
  constructor
  · refine ⟨⟨?_, ?_⟩, ?_⟩
    · intros; trivial
    · intro o x o' cut _ h
      rcases hf : (farOracle o x).2 with f | _ | c
      · rw [hf] at h; simp at h
      · rw [hf] at h; simp at h
      · rw [hf] at h
        simp only [Prod.mk.injEq, Except.ok.injEq, Option.some.injEq] at h
        have hx : farOracle o x = ((farOracle o x).1, .ok (some c)) := Prod.ext rfl hf
        obtain ⟨h1, h2⟩ := farOracle_separating.cut o x _ c trivial hx
        rw [← h.2]
        exact ⟨h1, fun y hy => h2 hy.1⟩
    · intro o x o' _ h
      rcases hf : (farOracle o x).2 with f | _ | c <;> (rw [hf] at h; simp at h)
  · refine ⟨_, Ell.updateCore_none e1_ne_zero unitDisc_omega_ne ?_⟩
    rw [unitDisc_tsq]
    exact EllCalc.calcBiasCut_noSoln (by norm_num [unitDisc]) (by norm_num [unitDisc])

/-! ### C26 -/

theorem OptimTrace.inv_oracle [Preorder G] {omega : OracleOptim O (Vec n) (Cut n) G} {I : O → Prop}
    {L : G → Set (Vec n)} (hω : LevelOracle I L omega) {S : Type*} {sp : SearchSpace S (Vec n) (Cut n) ℝ} {lt tol}
    {o : O} {e : S} {g0 : G} (ho : I o) {l o' e'} (h : OptimTrace omega sp lt tol o e g0 l o' e') : I o' := by
  induction h with
  | start => exact ho
  | @step _ _ _ _ _ ev t _ _ a _ _ ih => have := hω.inv _ ev.x ev.gamma ih; rw [a] at this; exact this

/-- One iteration: the level set of the new best value stays inside, `NoSoln` is impossible if it is not empty. -/
theorem weak_updateFor [Preorder G] {omega : OracleOptim O (Vec n) (Cut n) G} {I : O → Prop} {L : G → Set (Vec n)}
    (hL : Antitone L) (hω : LevelOracle I L omega) {o o' : O} (ho : I o) {e e' : Ell n} (he : e.Weak)
    {ev : OptimEvent (Vec n) (Cut n) G} (hx : ev.x = e.xc)
    (ha : omega o ev.x ev.gamma = (o', .ok (ev.cut, ev.gamma1))) (hF : L ev.gamma ⊆ e.hull)
    (hne : (L (ev.gamma1.getD ev.gamma)).Nonempty) {st : CutStatus}
    (hu : (Ell.space n).updateFor e ev = (e', .ok st)) :
    e'.Weak ∧ L (ev.gamma1.getD ev.gamma) ⊆ e'.hull ∧ (st = .success ∨ st = .noEffect) := by
  obtain ⟨x, γ, cut, γ1⟩ := ev
  simp only at hx ha hF hne hu ⊢
  subst hx
  cases γ1 with
  | none =>
    obtain ⟨h0, hk⟩ := hω.cut _ _ _ _ _ ho ha
    exact Ell.weak_bias he hF hne h0 hk hu
  | some g1 =>
    obtain ⟨h0, hk⟩ := hω.value _ _ _ _ _ _ ho ha
    exact Ell.weak_central he ((hL h0).trans hF) hne hk hu

theorem bestOf_snoc_snd (g0 : G) (l : List (OptimEvent (Vec n) (Cut n) G)) (e : OptimEvent (Vec n) (Cut n) G)
    (h : e.gamma = (bestOf g0 l).2) : (bestOf g0 (l ++ [e])).2 = e.gamma1.getD e.gamma := by
  rw [bestOf_snoc]
  rcases e.gamma1 with _ | g
  · exact h.symm
  · rfl

theorem OptimTrace.weak [Preorder G] {omega : OracleOptim O (Vec n) (Cut n) G} {I : O → Prop}
    {L : G → Set (Vec n)} (hL : Antitone L) (hω : LevelOracle I L omega) {lt tol}
    {o : O} {e : Ell n} {g0 : G} (ho : I o) (he : e.Weak) (hF : L g0 ⊆ e.hull) {l o' e'}
    (h : OptimTrace omega (Ell.space n) lt tol o e g0 l o' e') (hne : (L (bestOf g0 l).2).Nonempty) :
    e'.Weak ∧ L (bestOf g0 l).2 ⊆ e'.hull := by
  induction h with
  | start => exact ⟨he, hF⟩
  | @step l o1 s1 o2 s2 ev t h1 h2 h3 h4 _ ih =>
    rw [bestOf_snoc_snd g0 l ev h2] at hne ⊢
    have hle : ev.gamma ≤ ev.gamma1.getD ev.gamma := by
      rcases hg : ev.gamma1 with _ | g
      · exact le_rfl
      · rw [hg] at h3; exact (hω.value _ _ _ _ _ _ (t.inv_oracle hω ho) h3).1
    rw [← h2] at ih
    obtain ⟨w, hs⟩ := ih (hne.mono (hL hle))
    obtain ⟨a, b, -⟩ := weak_updateFor hL hω (t.inv_oracle hω ho) w h1 h3 hs hne h4
    exact ⟨a, b⟩

/-- **C26.** With a correct optimisation oracle for an antitone family of level sets `L` (larger `γ` is better) whose initial level set is
inside the initial ellipsoid:
* after any number of iterations the level set of the best value so far is inside the current ellipsoid;
* if the next update returns `NoSoln`, the level set of the best value (including the one just reported) is empty;
* hence if `cutting_plane_optim` returns `γ` with a nonempty level set, it hit the limit, the tolerance, or a `NoEffect`. -/
theorem C26_optimality_sound [Preorder G] {omega : OracleOptim O (Vec n) (Cut n) G} {I : O → Prop}
    {L : G → Set (Vec n)} (hL : Antitone L) (hω : LevelOracle I L omega) (o : O) (ho : I o) (e : Ell n)
    (he : e.WF) (g0 : G) (hF : L g0 ⊆ e.region) (opts : Options ℝ) :
    (∀ l o1 e1, OptimTrace omega (Ell.space n) ltReal opts.tolerance o e g0 l o1 e1 →
      L (bestOf g0 l).2 ⊆ e1.hull) ∧
    (∀ l o1 e1 ev o2 e2, OptimTrace omega (Ell.space n) ltReal opts.tolerance o e g0 l o1 e1 →
      ev.x = e1.xc → ev.gamma = (bestOf g0 l).2 → omega o1 ev.x ev.gamma = (o2, .ok (ev.cut, ev.gamma1)) →
      (Ell.space n).updateFor e1 ev = (e2, .ok .noSoln) → L (bestOf g0 (l ++ [ev])).2 = ∅) ∧
    (∀ o' e' xb γ k, (L γ).Nonempty →
      optim omega (Ell.space n) ltReal o e g0 opts = (o', e', .ok (xb, γ, k)) →
      k = opts.maxIters ∨ e'.tsq < opts.tolerance ∨
      ∃ l o1 e1 ev, OptimTrace omega (Ell.space n) ltReal opts.tolerance o e g0 l o1 e1 ∧
        (Ell.space n).updateFor e1 ev = (e', .ok .noEffect) ∧ (bestOf g0 (l ++ [ev])).2 = γ) := by
  rw [he.region_eq_hull] at hF
  have key : ∀ l o1 e1 ev o2 e2 st, OptimTrace omega (Ell.space n) ltReal opts.tolerance o e g0 l o1 e1 →
      ev.x = e1.xc → ev.gamma = (bestOf g0 l).2 → omega o1 ev.x ev.gamma = (o2, .ok (ev.cut, ev.gamma1)) →
      (Ell.space n).updateFor e1 ev = (e2, .ok st) → (L (ev.gamma1.getD ev.gamma)).Nonempty →
      st = .success ∨ st = .noEffect := by
    intro l o1 e1 ev o2 e2 st h h1 h2 h3 h4 hne
    have hle : ev.gamma ≤ ev.gamma1.getD ev.gamma := by
      rcases hg : ev.gamma1 with _ | g
      · exact le_rfl
      · rw [hg] at h3; exact (hω.value _ _ _ _ _ _ (h.inv_oracle hω ho) h3).1
    obtain ⟨w, hs⟩ := h.weak hL hω ho he.weak hF (by rw [← h2]; exact hne.mono (hL hle))
    rw [← h2] at hs
    exact (weak_updateFor hL hω (h.inv_oracle hω ho) w h1 h3 hs hne h4).2.2
  refine ⟨?_, ?_, ?_⟩
  · intro l o1 e1 h
    rcases (L (bestOf g0 l).2).eq_empty_or_nonempty with h0 | hne
    · rw [h0]; exact Set.empty_subset _
    · exact (h.weak hL hω ho he.weak hF hne).2
  · intro l o1 e1 ev o2 e2 h h1 h2 h3 h4
    rw [bestOf_snoc_snd g0 l ev h2]
    by_contra hne
    have := key l o1 e1 ev o2 e2 _ h h1 h2 h3 h4 (Set.nonempty_iff_ne_empty.mpr hne)
    simp at this
  · intro o' e' xb γ k hne h
    obtain ⟨l, o1, e1, ht, -, ⟨hk, -⟩ | ⟨-, ev, st, h1, h2, h3, h4, h5, hb⟩⟩ :=
      C24_optim_consistent_pair omega (Ell.space n) ltReal o e g0 opts o' e' xb γ k h
    · exact .inl hk
    · right
      have hγ : ev.gamma1.getD ev.gamma = γ := by rw [← bestOf_snoc_snd g0 l ev h2, ← hb]
      rcases h5 with h5 | h5
      · rcases key l o1 e1 ev o' e' st ht h1 h2 h3 h4 (by rw [hγ]; exact hne) with rfl | rfl
        · exact absurd rfl h5
        · exact .inr ⟨l, o1, e1, ev, ht, h4, by rw [← hb]⟩
      · exact .inl (ltReal_iff.mp h5)

/-- **C26 for minimisation over a set `K`.** If every reported value is the objective at a point of `K` (the centre consulted) and the cuts keep the points of `K` that
are strictly better, then a run that ends with `NoSoln` returns a global minimiser. Values are ordered by "lower is better" (`OrderDual`). -/
theorem C26_minimiser {omega : OracleOptim O (Vec n) (Cut n) ℝᵒᵈ} {I : O → Prop} (K : Set (Vec n)) (f : Vec n → ℝ)
    (hω : LevelOracle I (fun γ => {x ∈ K | f x < OrderDual.ofDual γ}) omega)
    (hval : ∀ o x γ o' cut γ1, I o → omega o x γ = (o', .ok (cut, some γ1)) →
      x ∈ K ∧ γ1 = OrderDual.toDual (f x))
    (o : O) (ho : I o) (e : Ell n) (he : e.WF) (g0 : ℝᵒᵈ) (hF : K ⊆ e.region) (opts : Options ℝ)
    {l o1 e1 ev o2 e2} (h : OptimTrace omega (Ell.space n) ltReal opts.tolerance o e g0 l o1 e1)
    (h1 : ev.x = e1.xc) (h2 : ev.gamma = (bestOf g0 l).2)
    (h3 : omega o1 ev.x ev.gamma = (o2, .ok (ev.cut, ev.gamma1)))
    (h4 : (Ell.space n).updateFor e1 ev = (e2, .ok .noSoln)) {x : Vec n}
    (hx : (bestOf g0 (l ++ [ev])).1 = some x) :
    x ∈ K ∧ ∀ y ∈ K, f x ≤ f y := by
  have hL : Antitone (fun γ : ℝᵒᵈ => {x ∈ K | f x < OrderDual.ofDual γ}) := by
    intro a b hab x hx
    exact ⟨hx.1, lt_of_lt_of_le hx.2 (OrderDual.ofDual_le_ofDual.mpr hab)⟩
  have hempty := (C26_optimality_sound hL hω o ho e he g0 (fun y hy => hF hy.1) opts).2.1 l o1 e1 ev o2 e2 h h1 h2 h3 h4
  have hbest : ∀ {l o1 e1}, OptimTrace omega (Ell.space n) ltReal opts.tolerance o e g0 l o1 e1 →
      ∀ x, (bestOf g0 l).1 = some x → x ∈ K ∧ (bestOf g0 l).2 = OrderDual.toDual (f x) := by
    intro l o1 e1 h
    induction h with
    | start => intro x hx; simp [bestOf] at hx
    | @step l o1 s1 o2 s2 ev t a1 a2 a3 _ _ ih =>
      intro x hx
      rw [bestOf_snoc] at hx ⊢
      rcases hg : ev.gamma1 with _ | g
      · rw [hg] at hx; exact ih x hx
      · rw [hg] at hx a3
        simp only [Option.some.injEq] at hx ⊢
        subst hx
        exact hval _ _ _ _ _ _ (t.inv_oracle hω ho) a3
  have hfin : x ∈ K ∧ (bestOf g0 (l ++ [ev])).2 = OrderDual.toDual (f x) := by
    rw [bestOf_snoc] at hx ⊢
    rcases hg : ev.gamma1 with _ | g
    · rw [hg] at hx; exact hbest h x hx
    · rw [hg] at hx h3
      simp only [Option.some.injEq] at hx ⊢
      subst hx
      exact hval _ _ _ _ _ _ (h.inv_oracle hω ho) h3
  refine ⟨hfin.1, fun y hy => ?_⟩
  by_contra hc
  have : y ∈ {x ∈ K | f x < OrderDual.ofDual (bestOf g0 (l ++ [ev])).2} := by
    refine ⟨hy, ?_⟩
    rw [hfin.2]; exact not_le.mp hc
  rw [hempty] at this
  exact this

/-- An oracle for minimising `|x₀|` over the unit disc. At points with `x₀ = 0` of the disc it reports the value 0 and a cut that leaves nothing (no point is
better); at other points of the disc it reports `|x₀|` and the tangent cut; elsewhere, and when the given value cannot be improved at the point, it raises. -/
noncomputable def absOracle : OracleOptim Unit (Vec 2) (Cut 2) ℝᵒᵈ := by
  classical
  exact fun _ x γ =>
    if x ∈ unitDisc.region ∧ |x 0| ≤ OrderDual.ofDual γ then
      if x 0 = 0 then ((), .ok ((![1, 0], .pair 0 (-1)), some (OrderDual.toDual |x 0|)))
      else if 0 < x 0 then ((), .ok ((![1, 0], .scalar 0), some (OrderDual.toDual |x 0|)))
      else ((), .ok ((![-1, 0], .scalar 0), some (OrderDual.toDual |x 0|)))
    else ((), .error .oracle)

theorem absOracle_level : LevelOracle (fun _ => True)
    (fun γ : ℝᵒᵈ => {x ∈ unitDisc.region | |x 0| < OrderDual.ofDual γ}) absOracle where
  inv _ _ _ _ := trivial
  cut o x γ o' cut _ h := by
    unfold absOracle at h
    split_ifs at h <;> simp at h
  value o x γ o' cut γ1 _ h := by
    unfold absOracle at h
    split_ifs at h with h0 h1 h2
    rotate_left 3
    · simp at h
    all_goals
      simp only [Prod.mk.injEq, Except.ok.injEq, Option.some.injEq, true_and] at h
      obtain ⟨rfl, rfl⟩ := h
      refine ⟨h0.2, fun y hy => ?_⟩
      have hy2 : |y 0| < |x 0| := hy.2
      simp only [keptSetCentral, CutChoice.keepsCentral, Set.mem_ofPred_eq]
    · rw [h1, abs_zero] at hy2; exact absurd hy2 (not_lt.mpr (abs_nonneg _))
    · simp [dotProduct, Fin.sum_univ_two]
      rw [abs_of_pos h2] at hy2
      linarith [le_abs_self (y 0)]
    · simp [dotProduct, Fin.sum_univ_two]
      rw [abs_of_neg (lt_of_le_of_ne (not_lt.mp h2) h1)] at hy2
      linarith [neg_abs_le (y 0)]

/-- C26 applies: from the unit disc the first consultation is at the minimiser `0` and the update with its cut returns `NoSoln`. -/
example : ∃ ev e2, ev.x = unitDisc.xc ∧ ev.gamma = OrderDual.toDual (1 : ℝ) ∧
    absOracle () ev.x ev.gamma = ((), .ok (ev.cut, ev.gamma1)) ∧
    (Ell.space 2).updateFor unitDisc ev = (e2, .ok .noSoln) ∧
    (bestOf (OrderDual.toDual (1 : ℝ)) [ev]).1 = some unitDisc.xc := by
  refine ⟨⟨unitDisc.xc, OrderDual.toDual 1, (![1, 0], .pair 0 (-1)), some (OrderDual.toDual 0)⟩,
    { unitDisc with tsq := unitDisc.kappa * unitDisc.omega ![1, 0] }, rfl, rfl, ?_, ?_, rfl⟩
  · have h1 : unitDisc.xc ∈ unitDisc.region := by simp [Ell.region, ellipsoid, unitDisc]
    have h2 : unitDisc.xc 0 = 0 := rfl
    unfold absOracle
    simp only
    rw [if_pos ⟨h1, by rw [h2, abs_zero]; exact zero_le_one⟩, if_pos h2, h2, abs_zero]
  · have : unitDisc.updateCentralCut (![1, 0], .pair 0 (-1)) = _ :=
      Ell.updateCore_none e1_ne_zero unitDisc_omega_ne (st := .noSoln) (by
        simp [EllCalc.calcSingleOrParallelCentralCut, unitDisc, EllCalc.std])
    exact this

end Ellalgo
