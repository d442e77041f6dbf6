import Verif.Py.Refine.RoundedEll1d
import Verif.Props.RoundedEll1d
import Verif.Props.SourceEll1d
import Verif.Props.RoundedBSearch
import Verif.Props.RoundedStable

/-!
# C127: `ell1d` in floating point, from its text
-/

namespace Ellalgo.Py

open Spec

variable {W : Type} {A : Arith} {u γ : ℝ} {N : ℕ} {ext : ℕ → String → List Val → M W Val} {fuel : ℕ} {st : St W}

/-- A pair of floats: a tuple or a list. -/
def IsFloatPair (v : Val) (a b : ℝ) : Prop := v = .tuple [.num a, .num b] ∨ v = .list [.num a, .num b]

/-- A history of calls `ell.update(cut)` or `ell.update(cut, central_cut)` with rounding, none of which answered `NoSoln`, with the centre that `ell.xc()` gave before each of them, the cut, and whether it was central. -/
inductive Float1dRun (A : Arith) (ext : ℕ → String → List Val → M W Val) (fuel o : ℕ) (st : St W) : List (ℝ × (ℝ × ℝ) × Bool) → St W → Prop
  | start : Float1dRun A ext fuel o st [] st
  | step {hist st1 st2 x v g b vs c r} : Float1dRun A ext fuel o st hist st1 →
      call (f1mach A ext) (fuel + 2) (.meth (.ref o) "xc") [] st1 = .ok (.num x) st1 →
      IsFloatPair v g b → g ≠ 0 → IsCentral vs c → call (f1mach A ext) (fuel + 2) (.meth (.ref o) "update") (v :: vs) st1 = .ok r st2 → r ≠ .glob "CutStatus.NoSoln" →
      Float1dRun A ext fuel o st (hist ++ [(x, (g, b), c)]) st2

/-- A model of every history of the text. -/
theorem Float1dRun.model (h2 : A.rnd 2 = 2) {o : ℕ} {e : Ell1d} (he : Float1dAt st o e) {hist : List (ℝ × (ℝ × ℝ) × Bool)} {st' : St W} (h : Float1dRun A ext fuel o st hist st') :
    ∃ e', A.Ell1dRun e hist e' ∧ Float1dAt st' o e' ∧ Frame (fun k => k = o) st st' ∧ ∀ c ∈ hist, c.2.1.1 ≠ 0 := by
  induction h with
  | start => exact ⟨e, .start, he, .refl _ _, by simp⟩
  | @step hist st1 st2 x v g b vs c r _ h1 h3 hg h4 h5 h6 ih =>
    obtain ⟨e1, i1, i2, i3, i4⟩ := ih
    have j1 := call_f1_xc (A := A) (ext := ext) (fuel := fuel) i2
    rw [h1] at j1
    simp only [Res.ok.injEq, Val.num.injEq, and_true] at j1
    subst j1
    obtain ⟨s, k1, k2, k3⟩ := call_f1_update (ext := ext) (fuel := fuel) h2 i2 hg h3 h4
    rw [h5] at k1
    rcases hu : A.ell1dUpdate e1 (g, b) c with ⟨e2, q⟩
    rw [hu] at k1 k2
    cases q with
    | error f => simp [outcome, M.exc] at k1
    | ok s' =>
      simp only [outcome, M.pure, Res.ok.injEq] at k1
      obtain ⟨rfl, rfl⟩ := k1
      refine ⟨e2, .step i1 hu ?_, k2, i3.trans k3, fun d hd => ?_⟩
      · rintro rfl
        exact h6 rfl
      · rcases List.mem_append.mp hd with hd | hd
        · exact i4 d hd
        · simp only [List.mem_singleton] at hd
          subst hd
          exact hg

theorem kept_iff {hist : List (ℝ × (ℝ × ℝ) × Bool)} {x : ℝ} : KeptBy hist x ↔ ∀ c ∈ hist, x ∈ Ell1d.kept c.1 c.2.1 c.2.2 := Iff.rfl

/-- **C127, from the text.** `ell = ell1d((l, r))` with floats `l`, `r` in `[-B, B]`, run from its text with a relative error of at most `u ≤ 1 / 100` in every operation, and then any history of `k` calls of `update` with
nonzero gradients none of which answered `NoSoln`: every `x` of `[l, r]` that all cuts keep lies between `ell._xc - ell._rd` and `ell._xc + ell._rd` up to `drift u B k`, and nothing else in memory has changed. The
next call of `update` does not raise; if it answers `NoSoln`, the points of `[l, r]` that all cuts and this one keep are all within `drift u B (k + 1)` of one point, so that no two of them are further apart than
twice that. -/
theorem C127_text (hA : A.Accurate u γ N) (hu : 0 ≤ u) (hu1 : u ≤ 1 / 100) (h2 : A.rnd 2 = 2) {v : Val} {l r B : ℝ} (hv : IsFloatPair v l r) (hl : |l| ≤ B) (hr : |r| ≤ B) :
    ∃ o st0, call (f1mach A ext) (fuel + 1) (.glob "ell1d") [v] st = .ok (.ref o) st0 ∧ st.next ≤ o ∧
      ∀ hist st1, Float1dRun A ext fuel o st0 hist st1 →
        (∃ attrs rd xc, st1.heap o = some (.inst "ell1d" attrs) ∧ attrs "_rd" = some (.num rd) ∧ attrs "_xc" = some (.num xc) ∧
          call (f1mach A ext) (fuel + 2) (.meth (.ref o) "xc") [] st1 = .ok (.num xc) st1 ∧
          ∀ x, l ≤ x → x ≤ r → KeptBy hist x → xc - rd - drift u B hist.length ≤ x ∧ x ≤ xc + rd + drift u B hist.length) ∧
        Frame (fun _ => False) st st1 ∧
        ∀ w g b vs c, IsFloatPair w g b → IsCentral vs c → g ≠ 0 →
          ∃ s st2, call (f1mach A ext) (fuel + 2) (.meth (.ref o) "update") (w :: vs) st1 = .ok (statusVal s) st2 ∧
            (s = .noSoln → ∀ xc, call (f1mach A ext) (fuel + 2) (.meth (.ref o) "xc") [] st1 = .ok (.num xc) st1 →
              ∃ p, ∀ x, l ≤ x → x ≤ r → KeptBy (hist ++ [(xc, (g, b), c)]) x → |x - p| ≤ drift u B (hist.length + 1)) := by
  obtain ⟨st0, k1, k2, k3⟩ := call_f1 (ext := ext) (fuel := fuel) (st := st) h2 hv
  refine ⟨st.next, st0, k1, le_rfl, fun hist st1 hrun => ?_⟩
  obtain ⟨e, r1, r2, r3, hg⟩ := hrun.model h2 k2
  obtain ⟨m1, m2⟩ := Arith.C127_history hA hu hu1 hl hr r1 hg
  have hxc := call_f1_xc (A := A) (ext := ext) (fuel := fuel) r2
  have hf : Frame (fun _ => False) st st1 := ⟨k3.next.trans r3.next, r3.world.trans k3.world, fun k hk _ => (r3.same k (hk.trans_le k3.next) hk.ne).trans (k3.same k hk id)⟩
  refine ⟨?_, hf, ?_⟩
  · obtain ⟨-, attrs, a1, a2, a3⟩ := r2
    exact ⟨attrs, e.rd, e.xc, a1, a2, a3, hxc, fun x hx1 hx2 hk => m1 x hx1 hx2 hk⟩
  · intro w g b vs c hw hc hg0
    obtain ⟨s2, u1, -, -⟩ := call_f1_update (ext := ext) (fuel := fuel) h2 r2 hg0 hw hc
    obtain ⟨e', s, w1, w2⟩ := m2 (g, b) c hg0
    rw [w1] at u1
    refine ⟨s, s2, u1, fun hs xc j1 => ?_⟩
    rw [hxc] at j1
    simp only [Res.ok.injEq, Val.num.injEq, and_true] at j1
    subst j1
    obtain ⟨p, hp⟩ := w2 hs
    exact ⟨p, fun x hx1 hx2 hk => hp x hx1 hx2 (fun d hd => hk d (List.mem_append_left _ hd)) (hk (e.xc, (g, b), c) (by simp))⟩

/-- **C127, soundness, from the text.** In the same histories, with `l ≤ r`: every `x` between `ell._xc - ell._rd` and `ell._xc + ell._rd` lies in `[l, r]` up to `drift u B k` and satisfies every cut that was made up to
`2 |grad| drift u B k`, and `ell._rd` is at least `-drift u B k`. -/
theorem C127_text_sound (hA : A.Accurate u γ N) (hu : 0 ≤ u) (hu1 : u ≤ 1 / 100) (h2 : A.rnd 2 = 2) {v : Val} {l r B : ℝ} (hv : IsFloatPair v l r) (hlr : l ≤ r) (hl : |l| ≤ B) (hr : |r| ≤ B) :
    ∃ o st0, call (f1mach A ext) (fuel + 1) (.glob "ell1d") [v] st = .ok (.ref o) st0 ∧
      ∀ hist st1, Float1dRun A ext fuel o st0 hist st1 →
        ∃ attrs rd xc, st1.heap o = some (.inst "ell1d" attrs) ∧ attrs "_rd" = some (.num rd) ∧ attrs "_xc" = some (.num xc) ∧ -drift u B hist.length ≤ rd ∧
          ∀ x, xc - rd ≤ x → x ≤ xc + rd → (l - drift u B hist.length ≤ x ∧ x ≤ r + drift u B hist.length) ∧
            ∀ c ∈ hist, c.2.1.1 * (x - c.1) + (if c.2.2 then 0 else c.2.1.2) ≤ |c.2.1.1| * (2 * drift u B hist.length) := by
  obtain ⟨st0, k1, k2, -⟩ := call_f1 (ext := ext) (fuel := fuel) (st := st) h2 hv
  refine ⟨st.next, st0, k1, fun hist st1 hrun => ?_⟩
  obtain ⟨e, r1, r2, -, hg⟩ := hrun.model h2 k2
  obtain ⟨m1, m2⟩ := Arith.C127_sound hA hu hu1 hlr hl hr r1 hg
  obtain ⟨-, attrs, a1, a2, a3⟩ := r2
  exact ⟨attrs, e.rd, e.xc, a1, a2, a3, m1, m2⟩

/-- **C127, with `p` bits.** In binary arithmetic with `p ≥ 7` bits and after `k` updates with `20 (k + 1) ≤ 2 ^ p`, the drift is at most `20 (k + 1) B / 2 ^ p`: in doubles and after a million updates less than `3e-9 B`. -/
theorem C127_bits {p : ℕ} (hp : 7 ≤ p) {v : Val} {l r B : ℝ} (hv : IsFloatPair v l r) (hl : |l| ≤ B) (hr : |r| ≤ B) :
    ∃ o st0, call (f1mach (Arith.ieee p) ext) (fuel + 1) (.glob "ell1d") [v] st = .ok (.ref o) st0 ∧
      ∀ hist st1, Float1dRun (Arith.ieee p) ext fuel o st0 hist st1 → 20 * ((hist.length : ℝ) + 1) ≤ 2 ^ p →
        ∃ attrs rd xc, st1.heap o = some (.inst "ell1d" attrs) ∧ attrs "_rd" = some (.num rd) ∧ attrs "_xc" = some (.num xc) ∧
          ∀ x, l ≤ x → x ≤ r → KeptBy hist x → xc - rd - 20 * (hist.length + 1) * B / 2 ^ p ≤ x ∧ x ≤ xc + rd + 20 * (hist.length + 1) * B / 2 ^ p := by
  have hu : (0 : ℝ) ≤ 2⁻¹ ^ p := by positivity
  have hu1 : (2⁻¹ : ℝ) ^ p ≤ 1 / 100 :=
    (pow_le_pow_of_le_one (by norm_num) (by norm_num) hp).trans (by norm_num)
  have hB : 0 ≤ B := (abs_nonneg _).trans hl
  obtain ⟨o, st0, k1, -, k3⟩ := C127_text (ext := ext) (fuel := fuel) (st := st) (Arith.ieee_accurate p 0) hu hu1 (ieee_two (by omega)) hv hl hr
  refine ⟨o, st0, k1, fun hist st1 hrun hk => ?_⟩
  obtain ⟨⟨attrs, rd, xc, a1, a2, a3, -, a5⟩, -⟩ := k3 hist st1 hrun
  have hpos : (0 : ℝ) < 2 ^ p := by positivity
  have hd : drift (2⁻¹ ^ p) B hist.length ≤ 20 * (hist.length + 1) * B / 2 ^ p := by
    have := ell1d_drift_le hu hB (k := hist.length) (by rw [inv_pow, ← div_eq_mul_inv, div_le_one hpos]; exact hk)
    refine this.trans (le_of_eq ?_)
    rw [inv_pow]; ring
  refine ⟨attrs, rd, xc, a1, a2, a3, fun x hx1 hx2 hkx => ?_⟩
  obtain ⟨c1, c2⟩ := a5 x hx1 hx2 hkx
  exact ⟨by linarith, by linarith⟩

/-- **C127, the half-width.** What holds in exact arithmetic (C83, C111), that `_rd` is never negative, fails in doubles: after `ell = ell1d((-a, a))` and `ell.update((g, b))`, which answers `Success`, with the doubles
`a = 2^52 + 2^26`, `g = 2^53 - 2^26` and `b = 2^53 (2^52 + 2^25)`, it is `-1 / 2`. -/
theorem C127_negative_width : ∃ o st0, call (f1mach (Arith.ieee 53) ext) (fuel + 1) (.glob "ell1d") [.tuple [.num (-4503599694479360), .num 4503599694479360]] st = .ok (.ref o) st0 ∧
    ∃ st1, call (f1mach (Arith.ieee 53) ext) (fuel + 2) (.meth (.ref o) "update") [.tuple [.num 9007199187632128, .num 40564819509534795751551796248576]] st0 = .ok (.glob "CutStatus.Success") st1 ∧
      ∃ attrs, st1.heap o = some (.inst "ell1d" attrs) ∧ attrs "_rd" = some (.num (-1 / 2)) := by
  have h2 := ieee_two (p := 53) (by norm_num)
  have hex : ∀ k e : ℤ, |(k : ℝ)| < 2 ^ 53 → (Arith.ieee 53).rnd (k * 2 ^ e) = k * 2 ^ e := fun k e hk => roundBits_exact k e hk
  obtain ⟨st0, k1, k2, -⟩ := call_f1 (ext := ext) (fuel := fuel) (st := st) h2 (v := .tuple [.num (-4503599694479360), .num 4503599694479360]) (.inl rfl)
  refine ⟨_, st0, k1, ?_⟩
  have r1 : (Arith.ieee 53).sub 4503599694479360 (-4503599694479360) = 2 * 4503599694479360 := by
    have := hex 4503599694479360 1 (by norm_num)
    norm_num [Arith.sub] at this ⊢
    exact this
  have r2 : (Arith.ieee 53).div (2 * 4503599694479360) 2 = 4503599694479360 := by
    have := hex 4503599694479360 0 (by norm_num)
    norm_num [Arith.div] at this ⊢
    exact this
  have r3 : (Arith.ieee 53).add (-4503599694479360) 4503599694479360 = 0 := by
    have := hex 0 0 (by norm_num)
    norm_num [Arith.add] at this ⊢
    exact this
  have he : (Arith.ieee 53).ell1dInit (-4503599694479360) 4503599694479360 = { rd := 4503599694479360, xc := 0, tsq := 0 } := by
    simp only [Arith.ell1dInit, r1, r2, r3]
  rw [he] at k2
  obtain ⟨st1, u1, u2, -⟩ := call_f1_update (ext := ext) (fuel := fuel) h2 k2 (g := 9007199187632128) (b := 40564819509534795751551796248576) (by norm_num) (.inl rfl) (vs := []) (c := false) (.inr ⟨rfl, rfl⟩)
  have s1 : (Arith.ieee 53).mul 4503599694479360 9007199187632128 = 40564819509534795751551796248576 := by
    have := roundBits_tie_up (p := 53) (x := 4503599694479360 * 9007199187632128) (e := 105) (k := 4503599660924927) (by norm_num) (by norm_num) (by decide) (by norm_num)
    refine Eq.trans this ?_
    norm_num
  have s2 : (Arith.ieee 53).div 40564819509534795751551796248576 9007199187632128 = 4503599694479361 := by
    have := roundBits_eq (p := 53) (x := 40564819509534795751551796248576 / 9007199187632128) (e := 52) (k := 4503599694479361) (by norm_num) (by norm_num) (by rw [abs_lt]; norm_num)
    refine Eq.trans this ?_
    norm_num
  have s3 : (Arith.ieee 53).sub 0 4503599694479361 = -4503599694479361 := by
    have := hex (-4503599694479361) 0 (by norm_num)
    norm_num [Arith.sub] at this ⊢
    exact this
  have s4 : (Arith.ieee 53).sub 0 4503599694479360 = -4503599694479360 := by
    have := hex (-4503599694479360) 0 (by norm_num)
    norm_num [Arith.sub] at this ⊢
    exact this
  have s5 : (Arith.ieee 53).sub (-4503599694479361) (-4503599694479360) = -1 := by
    have := hex (-1) 0 (by norm_num)
    norm_num [Arith.sub] at this ⊢
    exact this
  have s6 : (Arith.ieee 53).div (-1) 2 = -1 / 2 := by
    have := hex (-1) (-1) (by norm_num)
    norm_num [Arith.div] at this ⊢
    exact this
  have hup : ((Arith.ieee 53).ell1dUpdate { rd := 4503599694479360, xc := 0, tsq := 0 } (9007199187632128, 40564819509534795751551796248576) false).2 = .ok .success
      ∧ ((Arith.ieee 53).ell1dUpdate { rd := 4503599694479360, xc := 0, tsq := 0 } (9007199187632128, 40564819509534795751551796248576) false).1.rd = -1 / 2 := by
    have hg : ¬ ((9007199187632128 : ℝ) = 0) := by norm_num
    have hg2 : (9007199187632128 : ℝ) > 0 := by norm_num
    have hb : ¬ (false = true ∨ (40564819509534795751551796248576 : ℝ) = 0) := by norm_num
    have hb1 : ¬ ((40564819509534795751551796248576 : ℝ) > |40564819509534795751551796248576|) := by norm_num
    have hb2 : ¬ ((40564819509534795751551796248576 : ℝ) < -|40564819509534795751551796248576|) := by norm_num
    simp only [Arith.ell1dUpdate, Arith.pdiv, s1, if_neg hg, if_neg hb, if_neg hb1, if_neg hb2, if_pos hg2, s2, s3, s4, s5, s6, and_self]
  rw [hup.1] at u1
  obtain ⟨-, attrs, a1, a2, -⟩ := u2
  rw [hup.2] at a2
  exact ⟨st1, u1, attrs, a1, a2⟩

/-- The hypotheses of `C127_bits` and of its history are met: doubles, `ell1d((0.0, 1.0))`, and one call of `update` that cuts off less than everything. -/
example (st : St Unit) : ∃ o st0, call (f1mach (Arith.ieee 53) fun _ _ _ => M.stuck) 1 (.glob "ell1d") [.list [.num 0, .num 1]] st = .ok (.ref o) st0 ∧
    ∃ st1 x, Float1dRun (Arith.ieee 53) (fun _ _ _ => M.stuck) 0 o st0 [(x, (1, 0), false)] st1 ∧ 20 * (((([(x, ((1 : ℝ), (0 : ℝ)), false)] : List _).length : ℕ) : ℝ) + 1) ≤ 2 ^ 53 := by
  have h2 := ieee_two (p := 53) (by norm_num)
  obtain ⟨st0, k1, k2, k3⟩ := call_f1 (ext := fun _ _ _ => (M.stuck : M Unit Val)) (fuel := 0) (st := st) h2 (v := .list [.num 0, .num 1]) (.inr rfl)
  refine ⟨_, st0, k1, ?_⟩
  obtain ⟨s, u1, -⟩ := call_f1_update (ext := fun _ _ _ => (M.stuck : M Unit Val)) (fuel := 0) h2 k2 (v := .tuple [.num 1, .num 0]) one_ne_zero (.inl rfl) (vs := []) (c := false) (.inr ⟨rfl, rfl⟩)
  have hu : ((Arith.ieee 53).ell1dUpdate ((Arith.ieee 53).ell1dInit 0 1) (1, 0) false).2 = .ok .success := by simp [Arith.ell1dUpdate]
  rw [hu] at u1
  exact ⟨s, _, .step (hist := []) .start (call_f1_xc k2) (.inl rfl) one_ne_zero (.inr ⟨rfl, rfl⟩) u1 (by simp [statusVal]), by norm_num⟩

end Ellalgo.Py
