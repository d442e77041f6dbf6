import Verif.Lemmas.Lowpass
import Verif.Props.Convergence

/-! # `LowpassOracle` (C47, C48, C49) and the whole filter design loop (C61) -/

namespace Ellalgo

open Matrix Spec CuttingPlane

variable {n : ℕ}

/-- A call of one of the two public methods. -/
inductive LowpassCall (n : ℕ)
  | feas (x : Vec n)
  | optim (x : Vec n) (gamma : ℝ)

/-- The object after a history of calls. -/
noncomputable def LowpassOracle.after (o : LowpassOracle n) : List (LowpassCall n) → LowpassOracle n
  | [] => o
  | .feas x :: l => (o.assessFeas x).1.after l
  | .optim x γ :: l => (o.assessOptim x γ).1.after l

/-- The stopband bound in force after a history: the level of the last `assess_optim`. -/
def levelAfter (sp : ℝ) : List (LowpassCall n) → ℝ
  | [] => sp
  | .feas _ :: l => levelAfter sp l
  | .optim _ γ :: l => levelAfter γ l

/-- A cut that is violated at `x` and valid on `F`: the point itself is excluded by the first inequality (`0 + β0 > 0`), every point of `F` satisfies all of them. -/
def ViolatedValid (F : Set (Vec n)) (x : Vec n) (cut : Cut n) : Prop :=
  (∃ b, cut.2 = .scalar b ∧ 0 < b ∧ ∀ y ∈ F, cut.1 ⬝ᵥ (y - x) + b ≤ 0) ∨
  (∃ b0 b1, cut.2 = .pair b0 b1 ∧ 0 < b0 ∧ ∀ y ∈ F, cut.1 ⬝ᵥ (y - x) + b0 ≤ 0 ∧ -b1 ≤ cut.1 ⬝ᵥ (y - x))

namespace LowpassOracle

variable {d : LowpassDesign} {o : LowpassOracle n}

theorem row_norm (hn : 0 < n) (m k : ℕ) : 1 ≤ spectrumRow n m k ⬝ᵥ spectrumRow n m k := by
  have h : spectrumRow n m k ⟨0, hn⟩ * spectrumRow n m k ⟨0, hn⟩ ≤ spectrumRow n m k ⬝ᵥ spectrumRow n m k :=
    Finset.single_le_sum (f := fun i => spectrumRow n m k i * spectrumRow n m k i)
      (fun i _ => mul_self_nonneg _) (Finset.mem_univ _)
  have h1 : spectrumRow n m k ⟨0, hn⟩ = 1 := by simp [spectrumRow]
  rw [h1] at h; linarith

/-- The four kinds of cuts of `assess_feas`: violated here, valid on the specification, gradient of length at least 1. -/
theorem cut_ok (ho : Good d o) (hd : d.Proper) (hn : 0 < n) {x : Vec n} {cut : Cut n}
    (h : PassCut o x cut ∨ StopCut o x cut ∨ TransCut o x cut ∨ FirstCut x cut) :
    x ∉ d.Feasible n o.spSq ∧ ViolatedValid (d.Feasible n o.spSq) x cut ∧ 1 ≤ cut.1 ⬝ᵥ cut.1 := by
  have hrow : ∀ k, 1 ≤ o.spectrum k ⬝ᵥ o.spectrum k := by intro k; rw [ho.spectrum]; exact row_norm hn _ _
  have hneg : ∀ k, 1 ≤ -o.spectrum k ⬝ᵥ -o.spectrum k := by intro k; rw [neg_dotProduct_neg]; exact hrow k
  rw [← ho.clear_iff hd hn]
  have hF : ∀ y ∈ d.Feasible n o.spSq, Clear o y := fun y hy => (ho.clear_iff hd hn y).mpr hy
  rcases h with ⟨k, hk, ⟨hv, rfl⟩ | ⟨hv, rfl⟩⟩ | ⟨k, hk1, hk2, ⟨hv, rfl⟩ | ⟨hv, rfl⟩⟩ | ⟨k, hk1, hk2, hv, rfl⟩ | ⟨h0, hv, rfl⟩
  · refine ⟨fun hc => absurd (hc.pass k hk).2 (not_le.mpr hv), .inr ⟨_, _, rfl, by linarith, fun y hy => ?_⟩, hrow k⟩
    have := (hF y hy).pass k hk
    simp only [dotProduct_sub]
    constructor <;> linarith
  · refine ⟨fun hc => absurd (hc.pass k hk).1 (not_le.mpr hv), .inr ⟨_, _, rfl, by linarith, fun y hy => ?_⟩, hneg k⟩
    have := (hF y hy).pass k hk
    simp only [dotProduct_sub, neg_dotProduct]
    constructor <;> linarith
  · refine ⟨fun hc => absurd (hc.stop k hk1 hk2).2 (not_le.mpr hv), .inr ⟨_, _, rfl, by linarith, fun y hy => ?_⟩, hrow k⟩
    have := (hF y hy).stop k hk1 hk2
    simp only [dotProduct_sub]
    constructor <;> linarith
  · refine ⟨fun hc => absurd (hc.stop k hk1 hk2).1 (not_le.mpr hv), .inr ⟨_, _, rfl, by linarith, fun y hy => ?_⟩, hneg k⟩
    have := (hF y hy).stop k hk1 hk2
    simp only [dotProduct_sub, neg_dotProduct]
    constructor <;> linarith
  · refine ⟨fun hc => absurd (hc.trans k hk1 hk2) (not_le.mpr hv), .inl ⟨_, rfl, by linarith, fun y hy => ?_⟩, hneg k⟩
    have := (hF y hy).trans k hk1 hk2
    simp only [dotProduct_sub, neg_dotProduct]
    linarith
  · have hdot : ∀ y : Vec n, (fun j : Fin n => if (j : ℕ) = 0 then (-1 : ℝ) else 0) ⬝ᵥ y = -y ⟨0, h0⟩ := by
      intro y
      rw [dotProduct, Finset.sum_eq_single (⟨0, h0⟩ : Fin n)]
      · simp
      · intro j _ hj
        have : (j : ℕ) ≠ 0 := fun hc => hj (Fin.ext hc)
        simp [this]
      · simp
    refine ⟨fun hc => absurd (hc.first h0) (not_le.mpr hv), .inl ⟨_, rfl, by linarith, fun y hy => ?_⟩, ?_⟩
    · have := (hF y hy).first h0
      rw [hdot, Pi.sub_apply]
      linarith
    · rw [hdot]; simp

/-- `assess_feas` in terms of the specification. -/
theorem assessFeas_ok (ho : Good d o) (hd : d.Proper) (hn : 0 < n) (x : Vec n) :
    Good d (assessFeas o x).1 ∧ (assessFeas o x).1.spSq = o.spSq ∧
      ((x ∈ d.Feasible n o.spSq ∧ (assessFeas o x).2 = .ok none ∧
          Tracked o x (assessFeas o x).1.fmax (assessFeas o x).1.kmax) ∨
       (x ∉ d.Feasible n o.spSq ∧ ∃ cut, (assessFeas o x).2 = .ok (some cut) ∧
          ViolatedValid (d.Feasible n o.spSq) x cut ∧ 1 ≤ cut.1 ⬝ᵥ cut.1)) := by
  obtain ⟨h1, h2, h3⟩ := assessFeas_spec ho hn (ho.nwpass_le hd hn) (ho.nwstop_le hd hn) x
  refine ⟨h1, h2, ?_⟩
  rcases h3 with ⟨a, b, c⟩ | ⟨cut, a, b⟩
  · exact .inl ⟨(ho.clear_iff hd hn x).mp b, a, c⟩
  · obtain ⟨c1, c2, c3⟩ := cut_ok ho hd hn b
    exact .inr ⟨c1, cut, a, c2, c3⟩

theorem Good.withLevel (ho : Good d o) (γ : ℝ) : Good d { o with spSq := γ } :=
  ⟨ho.mdim, ho.spectrum, ho.nwpass, ho.nwstop, ho.lpSq, ho.upSq, ho.idx1, ho.idx2, ho.idx3⟩

theorem nwstop_lt_iff (ho : Good d o) (hd : d.Proper) (hn : 0 < n) : o.nwstop < o.mdim ↔ d.wstop < 1 := by
  have h := fifteen_pos hn
  have hg : Spec.grid n (15 * n - 1) = Real.pi := by
    unfold Spec.grid
    rw [Nat.cast_sub (by omega)]
    push_cast
    field_simp
  have h1 : o.nwstop < o.mdim ↔ o.nwstop ≤ 15 * n - 1 := by rw [ho.mdim]; omega
  rw [h1, ho.stop_iff hd hn, hg]
  constructor
  · intro h2
    by_contra hc
    have := mul_le_mul_of_nonneg_right (not_lt.mp hc) Real.pi_pos.le
    linarith
  · intro h2
    have := mul_lt_mul_of_pos_right h2 Real.pi_pos
    linarith

/-- `assess_optim` in terms of the specification. -/
theorem assessOptim_ok (ho : Good d o) (hd : d.Proper) (hn : 0 < n) (x : Vec n) (γ : ℝ) :
    Good d (assessOptim o x γ).1 ∧ (assessOptim o x γ).1.spSq = γ ∧
      ((x ∈ d.Feasible n γ ∧ d.wstop < 1 ∧ ∃ k, o.nwstop ≤ k ∧ k < o.mdim ∧
        (∀ i, o.nwstop ≤ i → i < o.mdim → o.spectrum i ⬝ᵥ x ≤ o.spectrum k ⬝ᵥ x) ∧
        (assessOptim o x γ).2 = .ok ((o.spectrum k, .pair 0 (o.spectrum k ⬝ᵥ x)), some (o.spectrum k ⬝ᵥ x))) ∨
       (x ∈ d.Feasible n γ ∧ d.wstop = 1 ∧ (assessOptim o x γ).2 = .error .mathDomain) ∨
       (x ∉ d.Feasible n γ ∧ ∃ cut, (assessOptim o x γ).2 = .ok (cut, none) ∧
         ViolatedValid (d.Feasible n γ) x cut ∧ 1 ≤ cut.1 ⬝ᵥ cut.1)) := by
  have g0 := ho.withLevel γ
  obtain ⟨g1, hsp, h⟩ := assessFeas_ok g0 hd hn x
  have hpair : assessFeas { o with spSq := γ } x =
    ((assessFeas { o with spSq := γ } x).1, (assessFeas { o with spSq := γ } x).2) := rfl
  rcases h with ⟨hx, he, htr, hmax⟩ | ⟨hx, cut, he, hv⟩
  · rw [he] at hpair
    set o1 := (assessFeas { o with spSq := γ } x).1 with ho1
    have e : assessOptim o x γ = o1.report := by rw [assessOptim, hpair]
    have hm : o1.mdim = o.mdim := by rw [g1.mdim, ho.mdim]
    have hspec : o1.spectrum = o.spectrum := by rw [g1.spectrum, ho.spectrum]
    have hst : o1.nwstop = o.nwstop := by rw [g1.nwstop, ho.nwstop]
    by_cases hw : d.wstop < 1
    · have hlt := (nwstop_lt_iff ho hd hn).mpr hw
      rcases htr with ⟨hb, -⟩ | ⟨h1, h2, hf⟩
      · have := hmax o.nwstop le_rfl hlt
        rw [hb] at this
        simp at this
      · have hrow : o1.row o1.kmax = .ok (o.spectrum o1.kmax) := by
          rw [row, if_pos (by rw [hm]; exact h2), hspec]
        have e2 : o1.report = (o1, .ok ((o.spectrum o1.kmax, .pair 0 (o.spectrum o1.kmax ⬝ᵥ x)),
            some (o.spectrum o1.kmax ⬝ᵥ x))) := by rw [report, hrow, hf]
        rw [hf] at hmax
        rw [e, e2]
        refine ⟨g1, hsp, .inl ⟨hx, hw, o1.kmax, h1, h2, fun i hi1 hi2 => ?_, rfl⟩⟩
        exact WithBot.coe_le_coe.mp (hmax i hi1 hi2)
    · have hw1 : d.wstop = 1 := le_antisymm hd.wstop_le (not_lt.mp hw)
      have hge : o.mdim ≤ o.nwstop := not_lt.mp fun hc => hw ((nwstop_lt_iff ho hd hn).mp hc)
      rcases htr with ⟨hb, hk⟩ | ⟨h1, h2, hf⟩
      · have hrow : o1.row o1.kmax = .ok (o1.spectrum o1.kmax) := if_pos (by rw [hk, g1.mdim]; omega)
        have e2 : o1.report = (o1, .error .mathDomain) := by rw [report, hrow, hb]
        rw [e, e2]
        exact ⟨g1, hsp, .inr (.inl ⟨hx, hw1, rfl⟩)⟩
      · exact absurd (lt_of_le_of_lt h1 h2) (not_lt.mpr hge)
  · rw [he] at hpair
    have e : assessOptim o x γ = ((assessFeas { o with spSq := γ } x).1, .ok (cut, none)) := by
      rw [assessOptim, hpair]
    rw [e]
    exact ⟨g1, hsp, .inr (.inr ⟨hx, cut, rfl, hv⟩)⟩

/-- Any history of calls keeps the indices in their bands and the design; the bound in force is the last level. -/
theorem after_good (ho : Good d o) (hd : d.Proper) (hn : 0 < n) (l : List (LowpassCall n)) :
    Good d (o.after l) ∧ (o.after l).spSq = levelAfter o.spSq l := by
  induction l generalizing o with
  | nil => exact ⟨ho, rfl⟩
  | cons c l ih =>
    cases c with
    | feas x =>
      obtain ⟨h1, h2, -⟩ := assessFeas_ok ho hd hn x
      obtain ⟨a, b⟩ := ih h1
      exact ⟨a, by rw [levelAfter, ← h2]; exact b⟩
    | optim x γ =>
      obtain ⟨h1, h2, -⟩ := assessOptim_ok ho hd hn x γ
      obtain ⟨a, b⟩ := ih h1
      refine ⟨a, ?_⟩
      rw [h2] at b; exact b

/-- A `LowpassOracle` of the design `d`, used in any way. -/
noncomputable def used (n : ℕ) (d : LowpassDesign) (sp : ℝ) (l : List (LowpassCall n)) : LowpassOracle n :=
  (init n d.wpass d.wstop d.lpSq d.upSq sp).after l

theorem used_good (hn : 0 < n) (hd : d.Proper) (sp : ℝ) (l : List (LowpassCall n)) :
    Good d (used n d sp l) ∧ (used n d sp l).spSq = levelAfter sp l :=
  after_good (init_good n d sp) hd hn l

end LowpassOracle

open LowpassOracle

/-- **C47.** After any history of calls, `assess_feas(x)` returns `None` exactly if `x` meets the whole sampled specification with the
stopband bound in force; it never raises. -/
theorem C47_lowpass_decides (hn : 0 < n) (d : LowpassDesign) (hd : d.Proper) (sp : ℝ) (l : List (LowpassCall n))
    (x : Vec n) :
    ((assessFeas (used n d sp l) x).2 = .ok none ↔ x ∈ d.Feasible n (levelAfter sp l)) ∧
    ∃ r, (assessFeas (used n d sp l) x).2 = .ok r := by
  obtain ⟨g, hs⟩ := used_good hn hd sp l
  obtain ⟨-, -, h⟩ := assessFeas_ok g hd hn x
  rw [hs] at h
  rcases h with ⟨h1, h2, -⟩ | ⟨h1, cut, h2, -⟩
  · exact ⟨⟨fun _ => h1, fun _ => h2⟩, _, h2⟩
  · refine ⟨⟨fun h => ?_, fun h => absurd h h1⟩, _, h2⟩
    rw [h2] at h; simp at h

/-- **C48.** After any history of calls, a cut returned by `assess_feas` has a positive first offset, every design meeting the specification satisfies
it (both inequalities for pairs), and its gradient has length at least 1. -/
theorem C48_lowpass_cuts_valid (hn : 0 < n) (d : LowpassDesign) (hd : d.Proper) (sp : ℝ) (l : List (LowpassCall n))
    (x : Vec n) (o' : LowpassOracle n) (cut : Cut n) (h : assessFeas (used n d sp l) x = (o', .ok (some cut))) :
    ViolatedValid (d.Feasible n (levelAfter sp l)) x cut ∧ 1 ≤ cut.1 ⬝ᵥ cut.1 := by
  obtain ⟨g, hs⟩ := used_good hn hd sp l
  obtain ⟨-, -, hc⟩ := assessFeas_ok g hd hn x
  rw [hs, h] at hc
  rcases hc with ⟨-, h2, -⟩ | ⟨-, c, h2, h3⟩
  · simp at h2
  · simp only [Except.ok.injEq, Option.some.injEq] at h2
    subst h2; exact h3

/-- **C49.** After any history of calls, for a design with a nonempty stopband: `assess_optim(x, γ)` reports a value exactly if `x` is feasible
for `γ`; the value is the largest stopband response at `x`, at most `γ`, and the accompanying cut (used with offset 0) keeps every design that is feasible for the value. Otherwise it
answers a cut that is violated at `x` and keeps every design feasible for `γ`. -/
theorem C49_lowpass_optim (hn : 0 < n) (d : LowpassDesign) (hd : d.Proper) (hw : d.wstop < 1) (sp : ℝ)
    (l : List (LowpassCall n)) (x : Vec n) (γ : ℝ) :
    (∀ o' cut γ1, assessOptim (used n d sp l) x γ = (o', .ok (cut, some γ1)) →
      x ∈ d.Feasible n γ ∧ d.IsStopMax x γ1 ∧ γ1 ≤ γ ∧
      ∀ y ∈ d.Feasible n γ1, cut.1 ⬝ᵥ (y - x) ≤ 0 ∧ 0 ≤ cut.1 ⬝ᵥ (y - x) + γ1 ∧ cut.2 = .pair 0 γ1) ∧
    (x ∈ d.Feasible n γ → ∃ o' cut γ1, assessOptim (used n d sp l) x γ = (o', .ok (cut, some γ1))) ∧
    (x ∉ d.Feasible n γ → ∃ o' cut, assessOptim (used n d sp l) x γ = (o', .ok (cut, none)) ∧
      ViolatedValid (d.Feasible n γ) x cut) := by
  obtain ⟨g, -⟩ := used_good hn hd sp l
  obtain ⟨-, -, h⟩ := assessOptim_ok g hd hn x γ
  set o := used n d sp l
  rcases h with ⟨hx, -, k, h1, h2, h3, h4⟩ | ⟨-, hc, -⟩ | ⟨hx, cut, h2, h3, -⟩
  · refine ⟨?_, fun _ => ⟨_, _, _, Prod.ext rfl h4⟩, fun hc => absurd hx hc⟩
    intro o' cut γ1 h
    rw [h] at h4
    simp only [Except.ok.injEq, Prod.mk.injEq, Option.some.injEq] at h4
    obtain ⟨rfl, rfl⟩ := h4
    have hm := g.mdim
    have hk : k < 15 * n := by omega
    have hstop := (g.stop_iff hd hn k).mp h1
    have hmax : d.IsStopMax x (o.spectrum k ⬝ᵥ x) := by
      refine ⟨⟨k, hk, hstop, g.dot k x⟩, fun i hi hi2 => ?_⟩
      have := h3 i ((g.stop_iff hd hn i).mpr hi2) (by omega)
      rwa [g.dot i] at this
    refine ⟨hx, hmax, ?_, fun y hy => ?_⟩
    · have := hx.2 k hk hstop; rwa [← g.dot] at this
    · have a := hy.2 k hk hstop
      have b := hy.1.stop k hk hstop
      rw [← g.dot] at a b
      simp only [dotProduct_sub]
      exact ⟨by linarith, by linarith, trivial⟩
  · exact absurd hc hw.ne
  · refine ⟨?_, fun hc => absurd hc hx, fun _ => ⟨_, cut, Prod.ext rfl h2, h3⟩⟩
    intro o' c γ1 h
    rw [h] at h2
    simp at h2

/-- A design without stopband points (`wstop = 1`): at a feasible point there is no maximum to report. -/
theorem C49_no_stopband (hn : 0 < n) (d : LowpassDesign) (hd : d.Proper) (hw : d.wstop = 1) (sp : ℝ)
    (l : List (LowpassCall n)) (x : Vec n) (γ : ℝ) (hx : x ∈ d.Feasible n γ) :
    (assessOptim (used n d sp l) x γ).2 = .error .mathDomain := by
  obtain ⟨g, -⟩ := used_good hn hd sp l
  obtain ⟨-, -, h⟩ := assessOptim_ok g hd hn x γ
  rcases h with ⟨-, hc, -⟩ | ⟨-, -, h⟩ | ⟨hc, -⟩
  · exact absurd hw hc.ne
  · exact h
  · exact absurd hx hc

/-! ### An instance -/

/-- Passband `{0}` with response in `[0.9, 1.1]`, stopband above `π/2`. -/
noncomputable def halfDesign : LowpassDesign := ⟨0, 1 / 2, 9 / 10, 11 / 10⟩

theorem halfDesign_proper : halfDesign.Proper := by constructor <;> norm_num [halfDesign]

/-- `r = (1/2, 1/4)` has the response `1/2 + cos(w)/2`. -/
noncomputable def halfFilter : Vec 2 := ![1 / 2, 1 / 4]

theorem halfFilter_spectrum (w : ℝ) : powerSpectrum halfFilter w = 1 / 2 + Real.cos w / 2 := by
  simp [powerSpectrum, halfFilter, Fin.sum_univ_two]; ring

theorem halfFilter_feasible : halfFilter ∈ halfDesign.Feasible 2 (1 / 2) := by
  refine ⟨⟨fun k _ h => ?_, fun k _ _ => ?_, fun k _ _ _ => ?_, fun _ => ?_⟩, fun k hk h => ?_⟩
  · have h0 : 0 ≤ grid 2 k := by unfold grid; have := Real.pi_pos; norm_num; positivity
    have : grid 2 k = 0 := le_antisymm (by simpa [halfDesign] using h) h0
    rw [halfFilter_spectrum, this]; norm_num [halfDesign]
  · rw [halfFilter_spectrum]; linarith [Real.neg_one_le_cos (grid 2 k)]
  · rw [halfFilter_spectrum]; linarith [Real.neg_one_le_cos (grid 2 k)]
  · norm_num [halfFilter]
  · rw [halfFilter_spectrum]
    have hle : grid 2 k ≤ Real.pi := by
      unfold grid
      have hk' : (k : ℝ) ≤ 29 := by exact_mod_cast (by omega : k ≤ 29)
      have := Real.pi_pos
      push_cast
      rw [show (15 : ℝ) * 2 - 1 = 29 by norm_num, mul_div_assoc', div_le_iff₀ (by norm_num)]
      nlinarith
    have hgt : Real.pi / 2 ≤ grid 2 k := by
      have : (1 / 2 : ℝ) * Real.pi < grid 2 k := h
      linarith
    have := Real.cos_nonpos_of_pi_div_two_le_of_le hgt (by linarith [Real.pi_pos])
    linarith

/-- C47, C48 and C49 apply: `(1/2, 1/4)` is accepted at level `1/2` and has a value there; `(0, 0)` is rejected. -/
example (l : List (LowpassCall 2)) :
    (assessFeas (used 2 halfDesign (1 / 2) (.optim 0 (1 / 2) :: .feas 0 :: [])) halfFilter).2 = .ok none ∧
    (∃ o' cut γ1, assessOptim (used 2 halfDesign 0 l) halfFilter (1 / 2) = (o', .ok (cut, some γ1))) ∧
    ∃ o' cut, assessFeas (used 2 halfDesign 0 l) 0 = (o', .ok (some cut)) := by
  refine ⟨(C47_lowpass_decides (by norm_num) _ halfDesign_proper _ _ _).1.mpr halfFilter_feasible,
    (C49_lowpass_optim (by norm_num) _ halfDesign_proper (by norm_num [halfDesign]) _ l _ _).2.1 halfFilter_feasible, ?_⟩
  obtain ⟨h1, r, h2⟩ := C47_lowpass_decides (n := 2) (by norm_num) _ halfDesign_proper 0 l 0
  rcases r with _ | cut
  · have := (h1.mp h2).1.pass 0 (by norm_num) (by simp [grid, halfDesign])
    norm_num [powerSpectrum, halfDesign] at this
  · exact ⟨_, cut, Prod.ext rfl h2⟩

/-! ### The oracle in the optimisation loop -/

/-- Lower levels are better: the values of `cutting_plane_optim` in the order of `LevelOracle`. -/
def lowerBetter {O X C : Type*} (omega : OracleOptim O X C ℝ) : OracleOptim O X C ℝᵒᵈ :=
  fun o x γ => omega o x (OrderDual.ofDual γ)

theorem ViolatedValid.deep {F : Set (Vec n)} {x : Vec n} {cut : Cut n} (h : ViolatedValid F x cut) :
    cut.2.Deep ∧ cut.2.FirstNonneg ∧ F ⊆ keptSet cut x := by
  obtain ⟨g, c⟩ := cut
  rcases h with ⟨b, rfl, h0, h1⟩ | ⟨b0, b1, rfl, h0, h1⟩
  · exact ⟨h0.le, h0.le, h1⟩
  · refine ⟨h0.le, ?_, fun y hy => ?_⟩
    · intro b hb; simp at hb; subst hb; exact h0.le
    · exact ⟨(h1 y hy).1, by linarith [(h1 y hy).2]⟩

/-- `LowpassOracle.assess_optim` is a correct, total optimisation oracle for the level sets "feasible for `γ`". -/
theorem lowpass_regular (hn : 0 < n) (d : LowpassDesign) (hd : d.Proper) (hw : d.wstop < 1) :
    RegularLevelOracle (G := ℝᵒᵈ) (Good d) (fun γ => d.Feasible n (OrderDual.ofDual γ)) (lowerBetter assessOptim) where
  inv o x γ ho := (assessOptim_ok ho hd hn x _).1
  cut o x γ o' cut ho h := by
    have := (assessOptim_ok ho hd hn x (OrderDual.ofDual γ)).2.2
    rw [show assessOptim o x (OrderDual.ofDual γ) = (o', .ok (cut, none)) from h] at this
    rcases this with ⟨-, -, k, -, -, -, h4⟩ | ⟨-, hc, -⟩ | ⟨-, c, h2, h3, -⟩
    · simp at h4
    · exact absurd hc hw.ne
    · simp only [Except.ok.injEq, Prod.mk.injEq, and_true] at h2
      subst h2
      exact h3.deep.2
  value o x γ o' cut γ1 ho h := by
    have := (assessOptim_ok ho hd hn x (OrderDual.ofDual γ)).2.2
    rw [show assessOptim o x (OrderDual.ofDual γ) = (o', .ok (cut, some (OrderDual.ofDual γ1))) from h] at this
    rcases this with ⟨hx, -, k, h1, h2, h3, h4⟩ | ⟨-, hc, -⟩ | ⟨-, c, h2, h3, -⟩
    · simp only [Except.ok.injEq, Prod.mk.injEq, Option.some.injEq] at h4
      obtain ⟨rfl, h4⟩ := h4
      have hm := ho.mdim
      have hk : k < 15 * n := by omega
      have hstop := (ho.stop_iff hd hn k).mp h1
      refine ⟨?_, fun y hy => ?_⟩
      · have := hx.2 k hk hstop
        rw [← ho.dot, ← h4] at this
        exact this
      · have a := hy.2 k hk hstop
        have b := hy.1.stop k hk hstop
        rw [← ho.dot] at a b
        rw [h4] at a
        simp only [keptSetCentral, CutChoice.keepsCentral, Set.mem_ofPred_eq, dotProduct_sub]
        exact ⟨by linarith, by linarith⟩
    · exact absurd hc hw.ne
    · simp at h2
  total o x γ o' f ho h := by
    have := (assessOptim_ok ho hd hn x (OrderDual.ofDual γ)).2.2
    rw [show assessOptim o x (OrderDual.ofDual γ) = (o', .error f) from h] at this
    rcases this with ⟨-, -, k, -, -, -, h4⟩ | ⟨-, hc, -⟩ | ⟨-, c, h2, -⟩
    · simp at h4
    · exact absurd hc hw.ne
    · simp at h2
  shape o x γ o' cut ho h := by
    have := (assessOptim_ok ho hd hn x (OrderDual.ofDual γ)).2.2
    rw [show assessOptim o x (OrderDual.ofDual γ) = (o', .ok (cut, none)) from h] at this
    rcases this with ⟨-, -, k, -, -, -, h4⟩ | ⟨-, hc, -⟩ | ⟨-, c, h2, h3, h5⟩
    · simp at h4
    · exact absurd hc hw.ne
    · simp only [Except.ok.injEq, Prod.mk.injEq, and_true] at h2
      subst h2
      exact ⟨h3.deep.1, h5⟩
  shapeCentral o x γ o' cut γ1 ho h := by
    have := (assessOptim_ok ho hd hn x (OrderDual.ofDual γ)).2.2
    rw [show assessOptim o x (OrderDual.ofDual γ) = (o', .ok (cut, some (OrderDual.ofDual γ1))) from h] at this
    rcases this with ⟨hx, -, k, h1, h2, h3, h4⟩ | ⟨-, hc, -⟩ | ⟨-, c, h2, h3, -⟩
    · simp only [Except.ok.injEq, Prod.mk.injEq, Option.some.injEq] at h4
      obtain ⟨rfl, h4⟩ := h4
      refine ⟨trivial, ?_⟩
      rw [ho.spectrum]; exact row_norm hn _ _
    · exact absurd hc hw.ne
    · simp at h2

/-- **C61.** The filter design loop. For a design with a nonempty stopband whose feasible filters for the initial level `g0` lie in the ball of radius `R` around `x0`, and a target level
`γ* < g0` for which a whole ball of radius `r` of filters is feasible, `tolerance ≤ r²`: `cutting_plane_optim(LowpassOracle(...), Ell(R², x0), g0)`
* has met a centre whose largest stopband response is at most `γ*` within `2n(n+1)ln(R/r)` completed iterations (if `max_iters` allows);
* if `max_iters > 2n(n+1)ln(R/r)` and it returns `(x, γ, k)`, then `γ ≤ γ*`, `x` is a filter, it is feasible for `γ`, and `γ` is its largest stopband response. -/
theorem C61_filter_design (hn : 0 < n) (d : LowpassDesign) (hd : d.Proper) (hw : d.wstop < 1) (sp : ℝ)
    (l : List (LowpassCall n)) (x0 c : Vec n) (R r : ℝ) (hR : 0 < R) (hr : 0 < r) (e : Ell n)
    (he : Ell.init (.scalar (R ^ 2)) x0 = .ok e) (g0 γs : ℝ) (hF : d.Feasible n g0 ⊆ ball x0 R) (hg : γs < g0)
    (hball : ball c r ⊆ d.Feasible n γs) (opts : Options ℝ) (htol : opts.tolerance ≤ r ^ 2) :
    (∃ tr o1 e1 γ1, OptimTrace assessOptim (Ell.space n) ltReal opts.tolerance (used n d sp l) e g0 tr o1 e1 ∧
      (tr.length : ℝ) ≤ 2 * n * ((n : ℝ) + 1) * Real.log (R / r) ∧ d.IsStopMax (Ell.xc e1) γ1 ∧ γ1 ≤ γs ∧
      Ell.xc e1 ∈ d.Feasible n γ1) ∧
    (2 * n * ((n : ℝ) + 1) * Real.log (R / r) < opts.maxIters → ∀ o' e' xb γ k,
      optim assessOptim (Ell.space n) ltReal (used n d sp l) e g0 opts = (o', e', .ok (xb, γ, k)) →
      γ ≤ γs ∧ ∃ x, xb = some x ∧ x ∈ d.Feasible n γ ∧ d.IsStopMax x γ) := by
  have hreg := lowpass_regular hn d hd hw
  have hL : Antitone (fun γ : ℝᵒᵈ => d.Feasible n (OrderDual.ofDual γ)) := by
    intro a b hab y hy
    exact ⟨hy.1, fun k hk h => (hy.2 k hk h).trans (OrderDual.ofDual_le_ofDual.mpr hab)⟩
  have hval : ∀ (o : LowpassOracle n) x g o2 cut g1, Good d o → assessOptim o x g = (o2, .ok (cut, some g1)) →
      x ∈ d.Feasible n g1 ∧ d.IsStopMax x g1 := by
    intro o x g o2 cut g1 ho ha
    have := (assessOptim_ok ho hd hn x g).2.2
    rw [ha] at this
    rcases this with ⟨hx, -, k, a1, a2, a3, a4⟩ | ⟨-, hc, -⟩ | ⟨-, c, a2, -⟩
    · simp only [Except.ok.injEq, Prod.mk.injEq, Option.some.injEq] at a4
      obtain ⟨rfl, rfl⟩ := a4
      have hm := ho.mdim
      have hstop : d.StopBound (o.spectrum k ⬝ᵥ x) x := fun i hi hi2 => by
        have := a3 i ((ho.stop_iff hd hn i).mpr hi2) (by omega)
        rwa [ho.dot i] at this
      exact ⟨⟨hx.1, hstop⟩, ⟨k, by omega, (ho.stop_iff hd hn k).mp a1, ho.dot k x⟩, hstop⟩
    · exact absurd hc hw.ne
    · simp at a2
  obtain ⟨⟨tr, o1, e1, ev, o2, ht, hlen, hx, hγ, ha, γ1, hγ1, hle⟩, h1⟩ :=
    C27_optim_converges (G := ℝᵒᵈ) hL hreg (used n d sp l) (used_good hn hd sp l).1 x0 c R r hR hr e he
      (OrderDual.toDual g0) (OrderDual.toDual γs) hF (OrderDual.toDual_lt_toDual.mpr hg) hball opts htol
  refine ⟨?_, fun hmax o' e' xb γ k h => ?_⟩
  · rw [hγ1, hx] at ha
    have hi := ht.inv_oracle hreg.toLevelOracle (used_good hn hd sp l).1
    obtain ⟨v1, v2⟩ := hval o1 (Ell.xc e1) _ o2 _ (OrderDual.ofDual γ1) hi ha
    exact ⟨tr, o1, e1, OrderDual.ofDual γ1, ht, hlen, v2, hle, v1⟩
  · have h2 : γ ≤ γs := h1 hmax o' e' xb (OrderDual.toDual γ) k h
    refine ⟨h2, ?_⟩
    rcases optim_best_spec (I := Good d) (P := fun x γ => x ∈ d.Feasible n γ ∧ d.IsStopMax x γ)
      (fun o x γ ho => (assessOptim_ok ho hd hn x γ).1) hval (used_good hn hd sp l).1 h with ⟨-, rfl⟩ | hb
    · exact absurd h2 (not_le.mpr hg)
    · exact hb

theorem spectrum_two (y : Vec 2) (w : ℝ) : powerSpectrum y w = y 0 + 2 * y 1 * Real.cos w := by
  simp [powerSpectrum, Fin.sum_univ_two]

/-- C61 applies to `halfDesign` with `R = 2`, `r = 1/100`, initial level 1 and target level `3/5`. -/
theorem halfDesign_balls : halfDesign.Feasible 2 1 ⊆ ball 0 2 ∧
    ball ![(11 / 20 : ℝ), 9 / 40] (1 / 100) ⊆ halfDesign.Feasible 2 (3 / 5) := by
  constructor
  · rintro y ⟨hb, hs⟩
    have hpi := Real.pi_pos
    have g0 : grid 2 0 = 0 := by simp [grid]
    have g29 : grid 2 29 = Real.pi := by unfold grid; push_cast; norm_num; ring
    have h1 := hb.pass 0 (by norm_num) (by rw [g0]; simp [halfDesign])
    have hgt : halfDesign.wstop * Real.pi < grid 2 29 := by rw [g29]; simp only [halfDesign]; linarith
    have h2 := hb.stop 29 (by norm_num) hgt
    have h3 := hs 29 (by norm_num) hgt
    rw [spectrum_two] at h1 h2 h3
    rw [g0, Real.cos_zero] at h1
    rw [g29, Real.cos_pi] at h2 h3
    simp only [halfDesign] at h1
    simp only [ball, Set.mem_ofPred_eq, sub_zero, dotProduct, Fin.sum_univ_two]
    have a1 : 0 ≤ y 0 := by linarith
    have a2 : y 0 ≤ 21 / 20 := by linarith
    have a3 : -(1 / 2) ≤ y 1 := by linarith
    have a4 : y 1 ≤ 11 / 20 := by linarith
    nlinarith
  · intro y hy
    simp only [ball, Set.mem_ofPred_eq, dotProduct, Fin.sum_univ_two, Pi.sub_apply] at hy
    simp only [Matrix.cons_val_zero, Matrix.cons_val_one] at hy
    have b0 : |y 0 - 11 / 20| ≤ 1 / 100 := abs_le_of_sq_le_sq (by nlinarith [mul_self_nonneg (y 1 - 9 / 40)]) (by norm_num)
    have b1 : |y 1 - 9 / 40| ≤ 1 / 100 := abs_le_of_sq_le_sq (by nlinarith [mul_self_nonneg (y 0 - 11 / 20)]) (by norm_num)
    rw [abs_le] at b0 b1
    have low : ∀ w, 0 ≤ powerSpectrum y w := by
      intro w
      rw [spectrum_two]
      nlinarith [Real.neg_one_le_cos w, Real.cos_le_one w]
    refine ⟨⟨fun k _ h => ?_, fun k _ _ => low _, fun k _ _ _ => low _, fun _ => ?_⟩, fun k hk h => ?_⟩
    · have h0 : 0 ≤ grid 2 k := by unfold grid; have := Real.pi_pos; norm_num; positivity
      have : grid 2 k = 0 := le_antisymm (by simpa [halfDesign] using h) h0
      rw [spectrum_two, this, Real.cos_zero]
      simp only [halfDesign]
      constructor <;> linarith
    · show 0 ≤ y 0
      linarith
    · rw [spectrum_two]
      have hle : grid 2 k ≤ Real.pi := by
        unfold grid
        have hk' : (k : ℝ) ≤ 29 := by exact_mod_cast (by omega : k ≤ 29)
        have := Real.pi_pos
        push_cast
        rw [show (15 : ℝ) * 2 - 1 = 29 by norm_num, mul_div_assoc', div_le_iff₀ (by norm_num)]
        nlinarith
      have hgt : Real.pi / 2 ≤ grid 2 k := by
        have : (1 / 2 : ℝ) * Real.pi < grid 2 k := h
        linarith
      have := Real.cos_nonpos_of_pi_div_two_le_of_le hgt (by linarith [Real.pi_pos])
      nlinarith

/-! ### C62: the standard case -/

/-- **C62.** `create_lowpass_case(ndim)` is the design with band edges `0.12 π`, `0.2 π`, passband bounds `1.025^{∓2}` and initial stopband bound `0.125²`. (The
documentation speaks of a ripple of ±0.025 dB; the bounds allow a factor 1.025, which is about ±0.21 dB.) -/
theorem C62_standard_case (n : ℕ) :
    createLowpassCase n = used n ⟨0.12, 0.20, (1 / 1.025) ^ 2, 1.025 ^ 2⟩ (0.125 ^ 2) [] ∧
    LowpassDesign.Proper ⟨0.12, 0.20, (1 / 1.025) ^ 2, 1.025 ^ 2⟩ ∧ 20 * Real.logb 10 1.025 > 0.2 := by
  have h1 : (10 : ℝ) ^ (20 * Real.logb 10 (1 + 0.025) / 20) = 1.025 := by
    rw [mul_div_cancel_left₀ _ (by norm_num : (20 : ℝ) ≠ 0), Real.rpow_logb (by norm_num) (by norm_num) (by norm_num)]
    norm_num
  have h2 : (10 : ℝ) ^ (-(20 * Real.logb 10 (1 + 0.025)) / 20) = 1 / 1.025 := by
    rw [neg_div, Real.rpow_neg (by norm_num), h1, one_div]
  have h3 : (10 : ℝ) ^ (20 * Real.logb 10 0.125 / 20) = 0.125 := by
    rw [mul_div_cancel_left₀ _ (by norm_num : (20 : ℝ) ≠ 0), Real.rpow_logb (by norm_num) (by norm_num) (by norm_num)]
  refine ⟨?_, ⟨by norm_num, by norm_num, by norm_num, by norm_num⟩, ?_⟩
  · unfold createLowpassCase used after
    simp only [h1, h2, h3, pow_two]
  · have : (0.01 : ℝ) < Real.logb 10 1.025 := by
      rw [Real.lt_logb_iff_rpow_lt (by norm_num) (by norm_num)]
      have h : ((10 : ℝ) ^ (0.01 : ℝ)) ^ (100 : ℕ) < (1.025 : ℝ) ^ (100 : ℕ) := by
        rw [← Real.rpow_natCast, ← Real.rpow_mul (by norm_num)]
        norm_num
      exact lt_of_pow_lt_pow_left₀ 100 (by norm_num) h
    linarith

end Ellalgo
