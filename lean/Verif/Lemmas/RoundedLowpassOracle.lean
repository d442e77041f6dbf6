import Verif.Lemmas.RoundedLowpassCuts
import Verif.Spec.RoundedLowpass

/-! # `LowpassOracle` in rounded arithmetic as an oracle for the loops -/

namespace Ellalgo

open Matrix Spec

variable {n : ℕ} {A : Arith} {u γ : ℝ} {d : LowpassDesign} {o : LowpassOracle n}

namespace Arith.LowGood

variable (ho : A.LowGood d o) (hd : d.Proper) (hn : 0 < n)
include ho

theorem withLevel (g : ℝ) : A.LowGood d { o with spSq := g } := ⟨ho.mdim, ho.spectrum, ho.nwpass, ho.nwstop, ho.lpSq, ho.upSq, ho.idx1, ho.idx2, ho.idx3⟩

include hd hn

theorem nwpass_le : o.nwpass ≤ o.mdim := by rw [ho.nwpass, ho.mdim]; exact LowpassOracle.floor_le hn hd.wpass_le

theorem nwstop_le : o.nwstop ≤ o.mdim := by rw [ho.nwstop, ho.mdim]; exact LowpassOracle.floor_le hn hd.wstop_le

theorem pass_iff (k : ℕ) : k < o.nwpass ↔ grid n k ≤ d.wpass * Real.pi := by rw [LowpassOracle.grid_le_iff hn hd.wpass_nonneg, ho.nwpass]

theorem stop_iff (k : ℕ) : o.nwstop ≤ k ↔ d.wstop * Real.pi < grid n k := by rw [← not_lt, ← not_le (a := grid n k), LowpassOracle.grid_le_iff hn hd.wstop_nonneg, ho.nwstop]

end Arith.LowGood

/-- The responses that pass the checks are the ones of a filter that meets the design up to the errors of the responses. -/
theorem Arith.LowClear.near (ho : A.LowGood d o) (hd : d.Proper) (hA : A.Accurate u γ n) (hu : 0 ≤ u) (hnu : n * u ≤ γ) (hγ : 164 * γ ≤ 1) (hn : 0 < n) {x : Vec n} (h : A.LowClear o x) : d.Near o.spSq (respErr n γ * nrm x) x := by
  have hm := ho.mdim
  have hp := ho.nwpass_le hd hn
  have hs := ho.nwstop_le hd hn
  have he := fun k hk => abs_le.mp (Arith.lowResp_err hA hu hnu hγ (k := k) hk x)
  obtain ⟨c1, c2, c3, c4⟩ := h
  rw [ho.spectrum, ho.lpSq, ho.upSq] at c1
  rw [ho.spectrum] at c2 c3
  refine ⟨fun k hk h1 => ?_, fun k hk h1 => ?_, fun k hk h1 h2 => ?_, c4⟩
  · have a := c1 k ((ho.pass_iff hd hn k).mpr h1)
    have b := he k hk
    constructor <;> linarith [a.1, a.2, b.1, b.2]
  · have a := c2 k ((ho.stop_iff hd hn k).mpr h1) (by omega)
    have b := he k hk
    constructor <;> linarith [a.1, a.2, b.1, b.2]
  · have a := c3 k (not_lt.mp fun hc => absurd ((ho.pass_iff hd hn k).mp hc) (not_le.mpr h1)) (not_le.mp fun hc => absurd ((ho.stop_iff hd hn k).mp hc) (not_lt.mpr h2))
    have b := he k hk
    linarith [b.1, b.2]

/-- Every cut of `assess_feas` keeps the ball. -/
theorem LowSetup.viol {K r X M γs : ℝ} {c : Vec n} (S : LowSetup A d n u γ K r X M γs c) (ho : A.LowGood d o) (hsp : γs ≤ o.spSq) {x : Vec n} (hx : nrm x ≤ X) {cut : Cut n}
    (h : A.LowPassViol o x cut ∨ A.LowStopViol o x cut ∨ A.LowTransViol o x cut ∨ LowpassOracle.FirstCut x cut) : KeepsBall c r x cut := by
  have hn := S.pos
  have hd := S.proper
  have hm := ho.mdim
  have hp := ho.nwpass_le hd hn
  have hs := ho.nwstop_le hd hn
  have hr := S.r_pos
  rcases h with ⟨k, hk, h⟩ | ⟨k, hk1, hk2, h⟩ | ⟨k, hk1, hk2, hv, rfl⟩ | ⟨h0, hv, rfl⟩
  · rw [ho.spectrum, ho.lpSq, ho.upSq] at h
    have hF := fun z hz => (S.inner hz : z ∈ d.Feasible n γs).1.pass k (by omega) ((ho.pass_iff hd hn k).mp hk)
    obtain ⟨b1, b2⟩ := S.band (k := k) (by omega) hx S.lp_le S.up_le (fun y hy => S.slack_low (fun z hz => (hF z hz).1) hy) (fun y hy => S.slack_up (fun z hz => (hF z hz).2) hy)
    rcases h with ⟨hv, rfl⟩ | ⟨hv, rfl⟩
    · exact b1 hv
    · exact b2 hv
  · rw [ho.spectrum] at h
    have hst := (ho.stop_iff hd hn k).mp hk1
    obtain ⟨b1, b2⟩ := S.stopBand (k := k) (by omega) hx hsp (fun y hy => S.slack_low (fun z hz => (S.inner hz : z ∈ d.Feasible n γs).1.stop k (by omega) hst) hy)
      (fun y hy => S.slack_up (fun z hz => (S.inner hz : z ∈ d.Feasible n γs).2 k (by omega) hst) hy)
    rcases h with ⟨hv, rfl⟩ | ⟨hv, rfl⟩
    · exact b1 hv
    · exact b2 hv
  · rw [ho.spectrum] at hv ⊢
    exact S.below (k := k) (by omega) hx (fun y hy => S.slack_low (fun z hz => (S.inner hz : z ∈ d.Feasible n γs).1.trans k (by omega)
      (not_le.mp fun hc => absurd ((ho.pass_iff hd hn k).mpr hc) (by omega)) (not_lt.mp fun hc => absurd ((ho.stop_iff hd hn k).mpr hc) (by omega))) hy) hv
  · have hdot : ∀ w : Vec n, (fun j : Fin n => if (j : ℕ) = 0 then (-1 : ℝ) else 0) ⬝ᵥ w = -w ⟨0, h0⟩ := by
      intro w
      unfold dotProduct
      rw [Finset.sum_eq_single ⟨0, h0⟩ (fun b _ hb => by simp [show (b : ℕ) ≠ 0 from fun h => hb (Fin.ext h)]) (by simp)]
      simp
    refine KeepsBall.scalar (by rw [hdot]; simp) (by linarith) fun y hy => ?_
    have h2 : y ∈ ball c (2 * r) := by
      simp only [ball, Set.mem_ofPred_eq] at hy ⊢
      nlinarith
    have := (S.inner h2 : y ∈ d.Feasible n γs).1.first h0
    rw [hdot]
    simp only [Pi.sub_apply]
    linarith

/-- `assess_optim` in rounded arithmetic: a cut of `assess_feas`, or the largest of the computed responses in the stopband. -/
theorem Arith.lowOptim_spec (ho : A.LowGood d o) (hd : d.Proper) (hn : 0 < n) (hlt : o.nwstop < o.mdim) (x : Vec n) (g : ℝ) :
    A.LowGood d (A.lowOptim o x g).1 ∧
      ((∃ cut, (A.lowOptim o x g).2 = .ok (cut, none) ∧ (A.LowPassViol { o with spSq := g } x cut ∨ A.LowStopViol { o with spSq := g } x cut ∨ A.LowTransViol { o with spSq := g } x cut ∨ LowpassOracle.FirstCut x cut)) ∨
       (A.LowClear { o with spSq := g } x ∧ ∃ k, o.nwstop ≤ k ∧ k < o.mdim ∧ (∀ i, o.nwstop ≤ i → i < o.mdim → A.dot (o.spectrum i) x ≤ A.dot (o.spectrum k) x) ∧
        (A.lowOptim o x g).2 = .ok ((o.spectrum k, .pair 0 (A.dot (o.spectrum k) x)), some (A.dot (o.spectrum k) x)))) := by
  have g0 := ho.withLevel g
  obtain ⟨g1, -, h⟩ := Arith.lowFeas_spec A g0 hn (g0.nwpass_le hd hn) (g0.nwstop_le hd hn) x
  rcases hres : A.lowFeas { o with spSq := g } x with ⟨o1, res⟩
  rw [hres] at g1 h
  dsimp only at g1 h
  rcases h with ⟨rfl, hclear, htr, hmax⟩ | ⟨cut, rfl, hv⟩
  · have e : A.lowOptim o x g = o1.report := by rw [Arith.lowOptim, hres]
    have hm : o1.mdim = o.mdim := by rw [g1.mdim, ho.mdim]
    have hspec : o1.spectrum = o.spectrum := by rw [g1.spectrum, ho.spectrum]
    rcases htr with ⟨hb, -⟩ | ⟨h1, h2, hf⟩
    · have := hmax o.nwstop le_rfl hlt
      rw [hb] at this
      simp at this
    · have hrow : o1.row o1.kmax = .ok (o.spectrum o1.kmax) := by rw [LowpassOracle.row, if_pos (by rw [hm]; exact h2), hspec]
      have e2 : o1.report = (o1, .ok ((o.spectrum o1.kmax, .pair 0 (A.dot (o.spectrum o1.kmax) x)), some (A.dot (o.spectrum o1.kmax) x))) := by rw [LowpassOracle.report, hrow, hf]
      rw [hf] at hmax
      rw [e, e2]
      exact ⟨g1, .inr ⟨hclear, o1.kmax, h1, h2, fun i hi1 hi2 => WithBot.coe_le_coe.mp (hmax i hi1 hi2), rfl⟩⟩
  · have e : A.lowOptim o x g = (o1, .ok (cut, none)) := by rw [Arith.lowOptim, hres]
    rw [e]
    exact ⟨g1, .inl ⟨cut, rfl, hv⟩⟩

/-- Invariant of the runs: the attributes of the design, and the stopband is not empty. -/
def Arith.LowInv (A : Arith) (d : LowpassDesign) (o : LowpassOracle n) : Prop := A.LowGood d o ∧ o.nwstop < o.mdim

theorem Arith.LowInv.next (ho : A.LowInv d o) {o' : LowpassOracle n} (h : A.LowGood d o') : A.LowInv d o' := ⟨h, by rw [h.nwstop, h.mdim, ← ho.1.nwstop, ← ho.1.mdim]; exact ho.2⟩

/-- `assess_optim` for the loop: lower levels are better. -/
theorem LowSetup.optim {K r X M γs : ℝ} {c : Vec n} (S : LowSetup A d n u γ K r X M γs c) :
    InnerPairLevelOracle (G := ℝᵒᵈ) (A.LowInv d) (OrderDual.toDual γs) c r 1 X (fun (o : LowpassOracle n) x g => A.lowOptim o x (OrderDual.ofDual g)) where
  inv o x g ho := ho.next (A.lowOptim_spec ho.1 S.proper S.pos ho.2 x (OrderDual.ofDual g)).1
  total o x g o' f ho h := by
    have := (A.lowOptim_spec ho.1 S.proper S.pos ho.2 x (OrderDual.ofDual g)).2
    rw [show A.lowOptim o x (OrderDual.ofDual g) = (o', .error f) from h] at this
    rcases this with ⟨cut, h1, -⟩ | ⟨-, k, -, -, -, h1⟩ <;> cases h1
  cut o x g o' cut ho hx hg h := by
    have := (A.lowOptim_spec ho.1 S.proper S.pos ho.2 x (OrderDual.ofDual g)).2
    rw [show A.lowOptim o x (OrderDual.ofDual g) = (o', .ok (cut, none)) from h] at this
    rcases this with ⟨cut', h1, h2⟩ | ⟨-, k, -, -, -, h1⟩
    · cases h1
      exact S.viol (ho.1.withLevel (OrderDual.ofDual g)) (le_of_lt hg) hx h2
    · cases h1
  mono o x g o' cut g1 ho h := by
    have := (A.lowOptim_spec ho.1 S.proper S.pos ho.2 x (OrderDual.ofDual g)).2
    rw [show A.lowOptim o x (OrderDual.ofDual g) = (o', .ok (cut, some g1)) from h] at this
    rcases this with ⟨cut', h1, -⟩ | ⟨hc, k, k1, k2, -, h1⟩
    · cases h1
    · cases h1
      have h2 : A.dot (o.spectrum k) x ≤ OrderDual.ofDual g := (hc.stop k k1 k2).2
      exact h2
  value o x g o' cut g1 ho hx hg h := by
    have := (A.lowOptim_spec ho.1 S.proper S.pos ho.2 x (OrderDual.ofDual g)).2
    rw [show A.lowOptim o x (OrderDual.ofDual g) = (o', .ok (cut, some g1)) from h] at this
    rcases this with ⟨cut', h1, -⟩ | ⟨hc, k, k1, k2, -, h1⟩
    · cases h1
    · have hm := ho.1.mdim
      have hst := (ho.1.stop_iff S.proper S.pos k).mp k1
      have hk : k < 15 * n := by omega
      rw [ho.1.spectrum] at h1
      cases h1
      have hrow := A.lowRow_ge S.pos (15 * n) k
      have hp := abs_le.mp (S.point_resp hk hx)
      have hK := S.K_nonneg
      have hs := S.slack
      have hM : 0 ≤ u * M := mul_nonneg S.u_nonneg ((abs_nonneg _).trans S.lp_le)
      have hlow := fun y hy => S.slack_low (y := y) (fun z hz => (S.inner hz : z ∈ d.Feasible n γs).1.stop k hk hst) hy
      have hup := fun y hy => S.slack_up (y := y) (fun z hz => (S.inner hz : z ∈ d.Feasible n γs).2 k hk hst) hy
      have hg' : γs < A.dot (A.lowRow n (15 * n) k) x := hg
      refine ⟨0, .inr ⟨_, rfl, fun y hy => ?_⟩, fun y hy => ?_, row_ne_zero hrow, hrow⟩
      · have := hlow y hy
        have := abs_le.mp (S.ball_resp hk hy)
        simp only [dotProduct_sub]
        linarith
      · have := hup y hy
        have := abs_le.mp (S.ball_resp hk hy)
        simp only [dotProduct_sub]
        linarith

/-- `assess_feas` for the loop. -/
theorem LowSetup.feas {K r X M γs : ℝ} {c : Vec n} (S : LowSetup A d n u γ K r X M γs c) :
    InnerPairOracle (fun o : LowpassOracle n => A.LowGood d o ∧ o.spSq = γs) {x | d.Near γs (respErr n γ * nrm x) x} c r 1 X (fun (o : LowpassOracle n) x => A.lowFeas o x) := by
  have key : ∀ (o : LowpassOracle n) x, A.LowGood d o ∧ o.spSq = γs → _ := fun o x ho => A.lowFeas_spec ho.1 S.pos (ho.1.nwpass_le S.proper S.pos) (ho.1.nwstop_le S.proper S.pos) x
  refine ⟨fun o x ho => ⟨(key o x ho).1, (key o x ho).2.1.trans ho.2⟩, fun o x o' f ho h => ?_, fun o x o' ho hx h => ?_, fun o x o' cut ho hx h => ?_⟩
  · have := (key o x ho).2.2
    rw [show A.lowFeas o x = (o', .error f) from h] at this
    rcases this with ⟨h1, -⟩ | ⟨cut, h1, -⟩ <;> cases h1
  · have := (key o x ho).2.2
    rw [show A.lowFeas o x = (o', .ok none) from h] at this
    rcases this with ⟨-, h1, -⟩ | ⟨cut, h1, -⟩
    · have := h1.near ho.1 S.proper S.acc S.u_nonneg S.nu S.gamma S.pos
      rwa [ho.2] at this
    · cases h1
  · have := (key o x ho).2.2
    rw [show A.lowFeas o x = (o', .ok (some cut)) from h] at this
    rcases this with ⟨h1, -⟩ | ⟨cut', h1, h2⟩
    · cases h1
    · cases h1
      exact S.viol ho.1 ho.2.ge hx h2

end Ellalgo
