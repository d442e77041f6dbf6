import Verif.Spec.RoundedNear
import Verif.Props.RoundedConverge

/-! # C120: `cutting_plane_optim` in floating point with values that drop by rounding -/

namespace Ellalgo

open Matrix Spec CuttingPlane

variable {n : ℕ} {O : Type*} {A : Arith} {u γ R r D Λ ε ξ a η X gl d γs : ℝ} {c : Vec n} {omega : OracleOptim O (Vec n) (Cut n) ℝ} {I : O → Prop}

theorem Spec.InnerLevelOracle.near (h : InnerLevelOracle I γs c r η X omega) (gl : ℝ) : NearLevelOracle I gl 0 γs c r η X omega where
  inv := h.inv
  total := fun o x γ o' f hi _ _ _ => h.total o x γ o' f hi
  cut := fun o x γ o' cut hi hx _ hγ => h.cut o x γ o' cut hi hx hγ
  drop := fun o x γ o' cut γ1 hi _ ha => by rw [sub_zero]; exact h.mono o x γ o' cut γ1 hi ha
  value := fun o x γ o' cut γ1 hi hx _ _ h1 => h.value o x γ o' cut γ1 hi hx h1

/-- One iteration while the target has not been reached. -/
theorem Arith.At.updateNear (hA : A.Accurate u γ n) (hu : 0 ≤ u) (huγ : u ≤ γ) (hn : 2 ≤ n) (hR : 0 < R) (hr : 0 < r) (B : FloatBudget n u γ R r D Λ ε ξ a) (hc : nrm c ≤ D) (hη : 0 ≤ η) (hω : NearLevelOracle I gl d γs c r η X omega) (hX : D + Λ ≤ X)
    (hm : a * Λ ≤ r) {k : ℕ} {e : Ell n} (h : A.At c R r ((250 * ε + 2 * ξ) / a) Λ k e) (hk : (k : ℝ) ≤ floatIters n R r)
    {o o' : O} (ho : I o) {ev : OptimEvent (Vec n) (Cut n) ℝ} (hx : ev.x = e.xc) (hgl : gl ≤ ev.gamma) (hγ : ev.gamma < γs) (ha : omega o ev.x ev.gamma = (o', .ok (ev.cut, ev.gamma1))) (hlt : ev.gamma1.getD ev.gamma < γs) :
    ∃ e', (A.space n).updateFor e ev = (e', .ok .success) ∧ A.At c R r ((250 * ε + 2 * ξ) / a) Λ (k + 1) e' ∧ ((k + 1 : ℕ) : ℝ) ≤ floatIters n R r ∧ r ^ 2 * η ≤ 8 * e'.tsq := by
  obtain ⟨x, γ, ⟨g, b⟩, γ1⟩ := ev
  simp only at hx ha hlt hgl hγ ⊢
  subst hx
  have hcen := le_trans (h.centre hn hu (hu.trans huγ) hR hr B hc hk) hX
  cases γ1 with
  | none =>
    obtain ⟨β, rfl, hβ, hkeep, hg, hη1⟩ := hω.cut _ _ _ _ _ ho hcen hgl hγ ha
    exact h.next hA hu huγ hn hR hr B hc hk .bias hg hη1 hη (show 0 ≤ Method.bias.offset β from hβ) hkeep (.inr hm)
  | some g1 =>
    obtain ⟨β, rfl, hkeep, hg, hη1⟩ := hω.value _ _ _ _ _ _ ho hcen hgl hγ hlt ha
    exact h.next hA hu huγ hn hR hr B hc hk .central hg hη1 hη (show (0 : ℝ) ≤ Method.central.offset β from le_rfl) (fun y hy => by simpa [Method.offset] using hkeep y hy) (.inl rfl)

theorem OptimTrace.near_inv (hω : NearLevelOracle I gl d γs c r η X omega) {S : Type*} {sp : SearchSpace S (Vec n) (Cut n) ℝ} {lt tol} {o : O} {s : S} {g0 : ℝ} (ho : I o) {l o1 s1} (h : OptimTrace omega sp lt tol o s g0 l o1 s1) : I o1 := by
  induction h with
  | start => exact ho
  | @step l o1 s1 o2 s2 ev t h1 h2 h3 h4 _ ih =>
    have := hω.inv o1 ev.x ev.gamma ih
    rwa [h3] at this

/-- A value drops by at most `d` in one iteration. -/
theorem OptimTrace.near_drop (hω : NearLevelOracle I gl d γs c r η X omega) (hd : 0 ≤ d) {o o2 : O} (ho : I o) {g0 : ℝ} {l : List (OptimEvent (Vec n) (Cut n) ℝ)} {ev : OptimEvent (Vec n) (Cut n) ℝ} (h2 : ev.gamma = (bestOf g0 l).2) (hgl : gl ≤ (bestOf g0 l).2)
    (h3 : omega o ev.x ev.gamma = (o2, .ok (ev.cut, ev.gamma1))) : (bestOf g0 l).2 - d ≤ (bestOf g0 (l ++ [ev])).2 := by
  rw [bestOf_snoc_snd g0 l ev h2, ← h2]
  rcases hg : ev.gamma1 with _ | g
  · simpa using hd
  · rw [hg] at h3; exact hω.drop _ _ _ _ _ _ ho (h2 ▸ hgl) h3

/-- The values of a run of at most `N` iterations stay above the floor. -/
theorem OptimTrace.near_floor (hω : NearLevelOracle I gl d γs c r η X omega) (hd : 0 ≤ d) {S : Type*} {sp : SearchSpace S (Vec n) (Cut n) ℝ} {lt tol} {o : O} {s : S} {g0 : ℝ} (ho : I o) {N : ℝ} (hgl : gl + N * d ≤ g0) {l o1 s1} (h : OptimTrace omega sp lt tol o s g0 l o1 s1)
    (hl : (l.length : ℝ) ≤ N) : gl ≤ (bestOf g0 l).2 ∧ g0 - l.length * d ≤ (bestOf g0 l).2 := by
  suffices hs : g0 - l.length * d ≤ (bestOf g0 l).2 from ⟨by nlinarith [mul_le_mul_of_nonneg_right hl hd], hs⟩
  induction h with
  | start => simp [bestOf]
  | @step l o1 s1 o2 s2 ev t h1 h2 h3 h4 _ ih =>
    rw [List.length_append, List.length_singleton] at hl ⊢
    push_cast at hl ⊢
    have hi := ih (by linarith)
    have := near_drop hω hd (t.near_inv hω ho) h2 (by nlinarith [mul_le_mul_of_nonneg_right (show (l.length : ℝ) ≤ N by linarith) hd]) h3
    linarith

section run

variable (hA : A.Accurate u γ n) (hu : 0 ≤ u) (huγ : u ≤ γ) (hn : 2 ≤ n) (hR : 0 < R) (hr : 0 < r) (hrR : r ≤ R) (B : FloatBudget n u γ R r D Λ ε ξ a) (hc : nrm c ≤ D) (hη : 0 ≤ η) (hω : NearLevelOracle I gl d γs c r η X omega) (hd : 0 ≤ d) (hX : D + Λ ≤ X)
  (hm : a * Λ ≤ r) {lt : ℝ → ℝ → Bool} {tol : ℝ} {o : O} {e : Ell n} {g0 N : ℝ} (hg0 : g0 < γs) (hgl : gl + N * d ≤ g0) (ho : I o) (he : A.At c R r ((250 * ε + 2 * ξ) / a) Λ 0 e)

include hA hu huγ hn hR hr hrR B hc hη hω hd hX hm hg0 hgl ho he

/-- During a run of at most `N` iterations: the target has been reached, up to the drop since then, or the ball is still inside. -/
theorem OptimTrace.near {l o1 e1} (h : OptimTrace omega (A.space n) lt tol o e g0 l o1 e1) (hN : (l.length : ℝ) ≤ N) :
    γs - l.length * d ≤ (bestOf g0 l).2 ∨ ((bestOf g0 l).2 < γs ∧ A.At c R r ((250 * ε + 2 * ξ) / a) Λ l.length e1 ∧ (l.length : ℝ) ≤ floatIters n R r) := by
  induction h with
  | start => exact .inr ⟨by simpa [bestOf] using hg0, he, by simpa using floatIters_nonneg hr hrR⟩
  | @step l o1 s1 o2 s2 ev t h1 h2 h3 h4 _ ih =>
    have hN1 : (l.length : ℝ) ≤ N := by rw [List.length_append] at hN; push_cast at hN; linarith
    have hi := t.near_inv hω ho
    have hfl := (t.near_floor hω hd ho hgl hN1).1
    rcases ih hN1 with h5 | ⟨h5, hs, hk⟩
    · left
      have := near_drop hω hd hi h2 hfl h3
      rw [List.length_append, List.length_singleton]
      push_cast
      linarith
    · by_cases hge : γs ≤ (bestOf g0 (l ++ [ev])).2
      · left
        have : 0 ≤ ((l ++ [ev]).length : ℝ) * d := by positivity
        linarith
      · right
        have hlt := not_le.mp hge
        refine ⟨hlt, ?_⟩
        rw [bestOf_snoc_snd g0 l ev h2] at hlt
        obtain ⟨e2, k1, k2, k3, -⟩ := hs.updateNear hA hu huγ hn hR hr B hc hη hω hX hm hk hi h1 (h2 ▸ hfl) (h2 ▸ h5) h3 hlt
        obtain ⟨rfl, -⟩ := Prod.mk.injEq .. ▸ h4.symm.trans k1
        exact ⟨by rw [List.length_append]; exact k2, by rw [List.length_append]; exact k3⟩

end run

/-- **C120.** `cutting_plane_optim(omega, Ell(R², x0), g0)` in floating point with an oracle whose values may drop by `d`. Until a value at least as good as `γs` has been reported, the cuts keep a ball of radius `r` inside the ball of radius `R` around `x0`. Then
* such a value is reported after at most `(20/9) n (n+1) ln(2R/r)` completed iterations;
* with `max_iters` above this number and at most `N`, the value returned is at least `γs - N d`. -/
theorem C120_optim (hA : A.Accurate u γ n) (hu : 0 ≤ u) (huγ : u ≤ γ) (hn : 2 ≤ n) (hR : 0 < R) (hr : 0 < r) (B : FloatBudget n u γ R r D Λ ε ξ a) (hc : nrm c ≤ D) (hη : 0 ≤ η) (hω : NearLevelOracle I gl d γs c r η X omega) (hd : 0 ≤ d) (hX : D + Λ ≤ X)
    (hm : a * Λ ≤ r) {o : O} (ho : I o) {x0 : Vec n} (hsub : ball c r ⊆ ball x0 R) {e : Ell n} (he : A.ellInit (.scalar (R ^ 2)) x0 = .ok e)
    {g0 N : ℝ} (hg0 : g0 < γs) (hgl : gl + N * d ≤ g0) (hN : floatIters n R r + 1 ≤ N) (opts : Options ℝ) (htol : 8 * opts.tolerance ≤ r ^ 2 * η) :
    (∃ l o1 e1, ∃ ev : OptimEvent (Vec n) (Cut n) ℝ, ∃ o2, OptimTrace omega (A.space n) ltReal opts.tolerance o e g0 l o1 e1 ∧
      (l.length : ℝ) ≤ floatIters n R r ∧ ev.x = e1.xc ∧ ev.gamma = (bestOf g0 l).2 ∧
      omega o1 ev.x ev.gamma = (o2, .ok (ev.cut, ev.gamma1)) ∧ ∃ γ1, ev.gamma1 = some γ1 ∧ γs ≤ γ1) ∧
    (floatIters n R r < opts.maxIters → (opts.maxIters : ℝ) ≤ N → ∀ o' e' xb γ k,
      optim omega (A.space n) ltReal o e g0 opts = (o', e', .ok (xb, γ, k)) → γs - N * d ≤ γ) := by
  have hrR := radius_le (by omega) hR hsub
  have h0 : A.At c R r ((250 * ε + 2 * ξ) / a) Λ 0 e := Arith.at_init hR hr hsub he
  have hnear : ∀ {l o1 e1}, OptimTrace omega (A.space n) ltReal opts.tolerance o e g0 l o1 e1 → (l.length : ℝ) ≤ N → γs - l.length * d ≤ (bestOf g0 l).2 ∨ ((bestOf g0 l).2 < γs ∧ A.At c R r ((250 * ε + 2 * ξ) / a) Λ l.length e1 ∧ (l.length : ℝ) ≤ floatIters n R r) :=
    fun h hl => h.near hA hu huγ hn hR hr hrR B hc hη hω hd hX hm hg0 hgl ho h0 hl
  have hstep : ∀ l o1 e1 ev o2, OptimTrace omega (A.space n) ltReal opts.tolerance o e g0 l o1 e1 → (l.length : ℝ) ≤ N → (bestOf g0 l).2 < γs → A.At c R r ((250 * ε + 2 * ξ) / a) Λ l.length e1 → (l.length : ℝ) ≤ floatIters n R r →
      ev.x = e1.xc → ev.gamma = (bestOf g0 l).2 → omega o1 ev.x ev.gamma = (o2, .ok (ev.cut, ev.gamma1)) → (bestOf g0 (l ++ [ev])).2 < γs →
      ∃ e2, (A.space n).updateFor e1 ev = (e2, .ok .success) ∧ ltReal ((A.space n).tsq e2) opts.tolerance = false ∧ A.At c R r ((250 * ε + 2 * ξ) / a) Λ (l.length + 1) e2 ∧ ((l.length + 1 : ℕ) : ℝ) ≤ floatIters n R r := by
    intro l o1 e1 ev o2 h hl hlt hs hk h1 h2 h3 hlt2
    have hfl := (h.near_floor hω hd ho hgl hl).1
    rw [bestOf_snoc_snd g0 l ev h2] at hlt2
    obtain ⟨e2, k1, k2, k3, k4⟩ := hs.updateNear hA hu huγ hn hR hr B hc hη hω hX hm hk (h.near_inv hω ho) h1 (h2 ▸ hfl) (h2 ▸ hlt) h3 hlt2
    exact ⟨e2, k1, ltReal_false.mpr (show opts.tolerance ≤ e2.tsq by linarith), k2, k3⟩
  refine ⟨?_, ?_⟩
  · by_contra hno
    have hall : ∀ k : ℕ, ∃ l o1 e1, OptimTrace omega (A.space n) ltReal opts.tolerance o e g0 l o1 e1 ∧ l.length = k ∧ (bestOf g0 l).2 < γs ∧ A.At c R r ((250 * ε + 2 * ξ) / a) Λ l.length e1 ∧ (l.length : ℝ) ≤ floatIters n R r := by
      intro k
      induction k with
      | zero => exact ⟨[], o, e, .start, rfl, hg0, h0, by simpa using floatIters_nonneg hr hrR⟩
      | succ k ih =>
        obtain ⟨l, o1, e1, ht, hk, hlt, hs, hkl⟩ := ih
        have hl : (l.length : ℝ) ≤ N := by linarith
        rcases ha : omega o1 e1.xc (bestOf g0 l).2 with ⟨o2, f | ⟨cut, γ1⟩⟩
        · exact (hω.total _ _ _ _ _ (ht.near_inv hω ho) (le_trans (hs.centre hn hu (hu.trans huγ) hR hr B hc hkl) hX) (ht.near_floor hω hd ho hgl hl).1 hlt ha).elim
        let ev : OptimEvent (Vec n) (Cut n) ℝ := ⟨e1.xc, (bestOf g0 l).2, cut, γ1⟩
        have hlt2 : (bestOf g0 (l ++ [ev])).2 < γs := by
          by_contra hge
          rw [bestOf_snoc_snd g0 l ev rfl] at hge
          rcases hg : γ1 with _ | g
          · simp only [ev, hg, Option.getD_none] at hge; exact hge hlt
          · refine hno ⟨l, o1, e1, ev, o2, ht, hkl, rfl, rfl, ha, g, hg, ?_⟩
            simp only [ev, hg, Option.getD_some] at hge
            exact not_lt.mp hge
        obtain ⟨e2, hu, hts, k2, k3⟩ := hstep l o1 e1 ev o2 ht hl hlt hs hkl rfl rfl ha hlt2
        exact ⟨l ++ [ev], o2, e2, ht.step rfl rfl ha hu hts, by simp [hk], hlt2, by rw [List.length_append]; exact k2, by rw [List.length_append]; exact k3⟩
    obtain ⟨k, hk⟩ := exists_nat_gt (floatIters n R r)
    obtain ⟨l, o1, e1, ht, hl, -, -, this⟩ := hall k
    rw [hl] at this
    exact absurd this (not_le.mpr hk)
  · intro hmax hmaxN o' e' xb γ k hres
    obtain ⟨l, o1, e1, ht, hE⟩ := optim_spec omega (A.space n) ltReal o e g0 opts
    rw [hres] at hE
    simp only at hE
    have hmul : ∀ {q : ℝ}, q ≤ N → q * d ≤ N * d := fun hq => mul_le_mul_of_nonneg_right hq hd
    cases hE with
    | limit hl =>
      rcases hnear ht (by rw [hl]; exact hmaxN) with h | ⟨-, -, h⟩
      · rw [hl] at h; linarith [hmul hmaxN]
      · rw [hl] at h; exact absurd h (not_le.mpr hmax)
    | @stop _ _ st ev hl h1 h2 h3 h4 h5 =>
      have hl1 : ((l.length : ℝ) + 1) ≤ N := by
        have : l.length + 1 ≤ opts.maxIters := hl
        have : ((l.length + 1 : ℕ) : ℝ) ≤ opts.maxIters := by exact_mod_cast this
        push_cast at this; linarith
      rcases hnear ht (by linarith) with h | ⟨hlt, hs, hkl⟩
      · have := OptimTrace.near_drop hω hd (ht.near_inv hω ho) h2 (ht.near_floor hω hd ho hgl (by linarith)).1 h3
        have := hmul hl1
        rw [add_mul, one_mul] at this
        linarith
      · by_contra hge
        have hNd : 0 ≤ N * d := mul_nonneg (by linarith [(Nat.cast_nonneg l.length : (0 : ℝ) ≤ l.length)]) hd
        obtain ⟨e2, hu, hts, -⟩ := hstep l o1 e1 ev _ ht (by linarith) hlt hs hkl h1 h2 h3 (by linarith [not_le.mp hge])
        have heq := h4.symm.trans hu
        simp only [Prod.mk.injEq, Except.ok.injEq] at heq
        obtain ⟨rfl, rfl⟩ := heq
        rcases h5 with h5 | h5
        · exact absurd rfl h5
        · exact absurd h5 (by rw [hts]; simp)

end Ellalgo
