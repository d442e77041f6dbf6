import Verif.Model.Ell1d
import Mathlib.Tactic.Linarith
import Mathlib.Tactic.FieldSimp
import Mathlib.Tactic.Ring
import Mathlib.Data.Set.Lattice
import Mathlib.Order.Interval.Set.Basic

/-! # C83: the one-dimensional search space `ell1d` -/

namespace Ellalgo

namespace Ell1d

/-- The interval an `ell1d` object stands for. -/
def region (e : Ell1d) : Set ℝ := Set.Icc (e.xc - e.rd) (e.xc + e.rd)

/-- What a cut keeps at centre `c`: `grad * (x - c) + beta ≤ 0`, with `beta = 0` for a central cut. -/
def kept (c : ℝ) (cut : ℝ × ℝ) (central : Bool) : Set ℝ := {x | cut.1 * (x - c) + (if central then 0 else cut.2) ≤ 0}

/-- A run of updates: after the cuts `l` (each with the centre it was made at) none of which answered `NoSoln`. -/
inductive Run (e : Ell1d) : List (ℝ × (ℝ × ℝ) × Bool) → Ell1d → Prop
  | start : Run e [] e
  | step {l e1 e2 cut c st} : Run e l e1 → e1.update cut c = (e2, .ok st) → st ≠ .noSoln → Run e (l ++ [(e1.xc, cut, c)]) e2

/-- The interval of the constructor. -/
theorem C83_init (l u : ℝ) : (init l u).region = Set.Icc l u := by
  unfold region init
  simp only
  congr 1 <;> ring

/-- **C83.** For an interval (`rd ≥ 0`) and a cut with nonzero gradient, `update` never raises, leaves an interval, sets `tsq` to the squared half-width in the cut direction, and:
`Success` means that the interval is now exactly the part of the old one that the cut keeps; `NoSoln` that the cut keeps nothing of it, `NoEffect` that it keeps all of it, and in both cases nothing but
`tsq` has changed. -/
theorem C83_update_exact (e : Ell1d) (he : 0 ≤ e.rd) (cut : ℝ × ℝ) (hg : cut.1 ≠ 0) (central : Bool) :
    ∃ e' st, e.update cut central = (e', .ok st) ∧ 0 ≤ e'.rd ∧ e'.tsq = (e.rd * cut.1) ^ 2 ∧
      ((st = .success ∧ e'.region = e.region ∩ kept e.xc cut central) ∨
       (st = .noSoln ∧ e.region ∩ kept e.xc cut central = ∅ ∧ e'.xc = e.xc ∧ e'.rd = e.rd) ∨
       (st = .noEffect ∧ e.region ⊆ kept e.xc cut central ∧ e'.xc = e.xc ∧ e'.rd = e.rd)) := by
  obtain ⟨g, β⟩ := cut
  simp only at hg
  have hτ : |e.rd * g| = e.rd * |g| := by rw [abs_mul, abs_of_nonneg he]
  have hτ2 : |e.rd * g| ^ 2 = (e.rd * g) ^ 2 := sq_abs _
  unfold update
  simp only [hτ2]
  by_cases hc : central = true ∨ β = 0
  · rw [if_pos hc]
    refine ⟨_, _, rfl, by simp only; linarith, rfl, .inl ⟨rfl, ?_⟩⟩
    have hβ : (if central = true then 0 else β) = 0 := by
      rcases hc with h | h <;> simp [h]
    ext x
    simp only [region, kept, Set.mem_inter_iff, Set.mem_Icc, Set.mem_ofPred_eq, hβ, add_zero]
    rcases lt_or_gt_of_ne hg with h | h
    · rw [if_neg (not_lt.mpr h.le)]
      constructor
      · rintro ⟨h1, h2⟩
        exact ⟨⟨by linarith, by linarith⟩, mul_nonpos_of_nonpos_of_nonneg h.le (by linarith)⟩
      · rintro ⟨⟨h1, h2⟩, h3⟩
        have : 0 ≤ x - e.xc := by
          by_contra hx
          exact absurd h3 (not_le.mpr (mul_pos_of_neg_of_neg h (not_le.mp hx)))
        exact ⟨by linarith, by linarith⟩
    · rw [if_pos h]
      constructor
      · rintro ⟨h1, h2⟩
        exact ⟨⟨by linarith, by linarith⟩, mul_nonpos_of_nonneg_of_nonpos h.le (by linarith)⟩
      · rintro ⟨⟨h1, h2⟩, h3⟩
        have : x - e.xc ≤ 0 := by
          by_contra hx
          exact absurd h3 (not_le.mpr (mul_pos h (not_le.mp hx)))
        exact ⟨by linarith, by linarith⟩
  · rw [if_neg hc]
    push Not at hc
    have hβ : (if central = true then 0 else β) = β := by simp [hc.1]
    have hbd : ∀ x ∈ e.region, |g * (x - e.xc)| ≤ e.rd * |g| := by
      rintro x ⟨h1, h2⟩
      rw [abs_mul, mul_comm]
      exact mul_le_mul_of_nonneg_right (abs_le.mpr ⟨by linarith, by linarith⟩) (abs_nonneg g)
    rw [hτ]
    by_cases h1 : β > e.rd * |g|
    · rw [if_pos h1]
      refine ⟨_, _, rfl, he, rfl, .inr (.inl ⟨rfl, ?_, rfl, rfl⟩)⟩
      ext x
      simp only [Set.mem_inter_iff, Set.mem_empty_iff_false, iff_false, not_and, kept, Set.mem_ofPred_eq, hβ, not_le]
      intro hx
      have := (abs_le.mp (hbd x hx)).1
      linarith
    · rw [if_neg h1]
      by_cases h2 : β < -(e.rd * |g|)
      · rw [if_pos h2]
        refine ⟨_, _, rfl, he, rfl, .inr (.inr ⟨rfl, fun x hx => ?_, rfl, rfl⟩)⟩
        simp only [kept, Set.mem_ofPred_eq, hβ]
        have := (abs_le.mp (hbd x hx)).2
        linarith
      · rw [if_neg h2]
        push Not at h1 h2
        rw [show pdiv β g = .ok (β / g) by simp [pdiv, hg]]
        simp only
        have hq : g * (β / g) = β := by field_simp
        rcases lt_or_gt_of_ne hg with h | h
        · rw [abs_of_neg h] at h1 h2
          have hq1 : β / g ≤ e.rd := by
            rw [div_le_iff_of_neg h]; linarith
          have hq2 : -e.rd ≤ β / g := by
            rw [le_div_iff_of_neg h]; linarith
          simp only [if_neg (not_lt.mpr h.le)]
          refine ⟨_, _, rfl, by simp only; linarith, rfl, .inl ⟨rfl, ?_⟩⟩
          ext x
          simp only [region, kept, Set.mem_inter_iff, Set.mem_Icc, Set.mem_ofPred_eq, hβ]
          have e1 : g * (x - e.xc) + β = g * (x - e.xc + β / g) := by rw [mul_add, hq]
          rw [e1]
          constructor
          · rintro ⟨a, b⟩
            exact ⟨⟨by linarith, by linarith⟩, mul_nonpos_of_nonpos_of_nonneg h.le (by linarith)⟩
          · rintro ⟨⟨a, b⟩, c⟩
            have : 0 ≤ x - e.xc + β / g := by
              by_contra hx
              exact absurd c (not_le.mpr (mul_pos_of_neg_of_neg h (not_le.mp hx)))
            exact ⟨by linarith, by linarith⟩
        · rw [abs_of_pos h] at h1 h2
          have hq1 : β / g ≤ e.rd := by
            rw [div_le_iff₀ h]; linarith
          have hq2 : -e.rd ≤ β / g := by
            rw [le_div_iff₀ h]; linarith
          simp only [if_pos h]
          refine ⟨_, _, rfl, by simp only; linarith, rfl, .inl ⟨rfl, ?_⟩⟩
          ext x
          simp only [region, kept, Set.mem_inter_iff, Set.mem_Icc, Set.mem_ofPred_eq, hβ]
          have e1 : g * (x - e.xc) + β = g * (x - e.xc + β / g) := by rw [mul_add, hq]
          rw [e1]
          constructor
          · rintro ⟨a, b⟩
            exact ⟨⟨by linarith, by linarith⟩, mul_nonpos_of_nonneg_of_nonpos h.le (by linarith)⟩
          · rintro ⟨⟨a, b⟩, c⟩
            have : x - e.xc + β / g ≤ 0 := by
              by_contra hx
              exact absurd c (not_le.mpr (mul_pos h (not_le.mp hx)))
            exact ⟨by linarith, by linarith⟩

/-- **C83, histories.** After any history of cuts with nonzero gradients, none of which answered `NoSoln`, the interval is exactly the set of points of the initial interval that all cuts keep; and if
the next cut answers `NoSoln`, no point of the initial interval satisfies all of them. -/
theorem C83_history (e : Ell1d) (he : 0 ≤ e.rd) {l : List (ℝ × (ℝ × ℝ) × Bool)} {e1 : Ell1d} (h : Run e l e1) (hg : ∀ c ∈ l, c.2.1.1 ≠ 0) :
    0 ≤ e1.rd ∧ (∀ x, x ∈ e1.region ↔ x ∈ e.region ∧ ∀ c ∈ l, x ∈ kept c.1 c.2.1 c.2.2) ∧
    ∀ cut central e2, cut.1 ≠ 0 → e1.update cut central = (e2, .ok .noSoln) →
      ∀ x ∈ e.region, (∀ c ∈ l, x ∈ kept c.1 c.2.1 c.2.2) → x ∉ kept e1.xc cut central := by
  have key : 0 ≤ e1.rd ∧ ∀ x, x ∈ e1.region ↔ x ∈ e.region ∧ ∀ c ∈ l, x ∈ kept c.1 c.2.1 c.2.2 := by
    induction h with
    | start => exact ⟨he, fun x => by simp⟩
    | @step l e1 e2 cut c st t hu hs ih =>
      obtain ⟨i1, i2⟩ := ih fun c hc => hg c (List.mem_append_left _ hc)
      have hg' : cut.1 ≠ 0 := hg (e1.xc, cut, c) (by simp)
      obtain ⟨e', st', h1, h2, -, h3⟩ := C83_update_exact e1 i1 cut hg' c
      rw [hu] at h1
      simp only [Prod.mk.injEq, Except.ok.injEq] at h1
      obtain ⟨rfl, rfl⟩ := h1
      refine ⟨h2, fun x => ?_⟩
      have hl : (∀ c' ∈ l ++ [(e1.xc, cut, c)], x ∈ kept c'.1 c'.2.1 c'.2.2) ↔
          (∀ c' ∈ l, x ∈ kept c'.1 c'.2.1 c'.2.2) ∧ x ∈ kept e1.xc cut c := by
        constructor
        · exact fun h => ⟨fun c' hc => h c' (List.mem_append_left _ hc), h (e1.xc, cut, c) (by simp)⟩
        · rintro ⟨a, b⟩ c' hc
          rw [List.mem_append, List.mem_singleton] at hc
          rcases hc with hc | rfl
          · exact a c' hc
          · exact b
      rw [hl, ← and_assoc, ← i2 x]
      rcases h3 with ⟨-, h3⟩ | ⟨h3, -⟩ | ⟨-, h3, h4, h5⟩
      · rw [h3]; rfl
      · exact absurd h3 hs
      · have hr : e2.region = e1.region := by unfold region; rw [h4, h5]
        rw [hr]
        exact ⟨fun hx => ⟨hx, h3 hx⟩, fun hx => hx.1⟩
  refine ⟨key.1, key.2, fun cut central e2 hc hu x hx hl hk => ?_⟩
  obtain ⟨e', st', h1, -, -, h3⟩ := C83_update_exact e1 key.1 cut hc central
  rw [hu] at h1
  simp only [Prod.mk.injEq, Except.ok.injEq] at h1
  obtain ⟨rfl, rfl⟩ := h1
  rcases h3 with ⟨h3, -⟩ | ⟨-, h3, -⟩ | ⟨h3, -⟩
  · simp at h3
  · have : x ∈ e1.region ∩ kept e1.xc cut central := ⟨(key.2 x).mpr ⟨hx, hl⟩, hk⟩
    rw [h3] at this; exact this
  · simp at h3

/-- **C83, length.** A successful central cut halves the interval; a successful deep cut (`beta ≥ 0`) at least halves it. -/
theorem C83_halves (e : Ell1d) (he : 0 ≤ e.rd) (cut : ℝ × ℝ) (hg : cut.1 ≠ 0) (central : Bool) (hb : central = true ∨ 0 ≤ cut.2) (e' : Ell1d)
    (h : e.update cut central = (e', .ok .success)) : e'.rd ≤ e.rd / 2 ∧ (central = true → e'.rd = e.rd / 2) := by
  obtain ⟨g, β⟩ := cut
  simp only at hg hb
  have hτ : |e.rd * g| = e.rd * |g| := by rw [abs_mul, abs_of_nonneg he]
  unfold update at h
  simp only at h
  by_cases hc : central = true ∨ β = 0
  · rw [if_pos hc] at h
    simp only [Prod.mk.injEq, and_true] at h
    subst h
    exact ⟨le_rfl, fun _ => rfl⟩
  · rw [if_neg hc] at h
    push Not at hc
    have hb' : 0 ≤ β := by
      rcases hb with hb | hb
      · exact absurd hb hc.1
      · exact hb
    refine ⟨?_, fun h0 => absurd h0 hc.1⟩
    rw [show pdiv β g = .ok (β / g) by simp [pdiv, hg]] at h
    by_cases h1 : β > |e.rd * g|
    · rw [if_pos h1] at h; simp at h
    by_cases h2 : β < -|e.rd * g|
    · rw [if_neg h1, if_pos h2] at h; simp at h
    rw [if_neg h1, if_neg h2] at h
    simp only [Prod.mk.injEq, and_true] at h
    subst h
    rcases lt_or_gt_of_ne hg with h | h
    · simp only [if_neg (not_lt.mpr h.le)]
      have : β / g ≤ 0 := div_nonpos_of_nonneg_of_nonpos hb' h.le
      linarith
    · simp only [if_pos h]
      have : 0 ≤ β / g := div_nonneg hb' h.le
      linarith

/-- **C83, zero gradients** (the `TODO` of line 89). With a nonzero offset the answer is right (`beta ≤ 0` holds everywhere or nowhere); with `beta = 0`, or in a central cut, every point satisfies the
cut, yet the lower half of the interval is thrown away. -/
theorem C83_zero_gradient (e : Ell1d) (he : 0 < e.rd) (β : ℝ) :
    (0 < β → (e.update (0, β)).2 = .ok .noSoln) ∧ (β < 0 → (e.update (0, β)).2 = .ok .noEffect) ∧
    ((e.update (0, 0)).2 = .ok .success ∧ kept e.xc (0, 0) false = Set.univ ∧ e.xc - e.rd ∈ e.region ∧ e.xc - e.rd ∉ (e.update (0, 0)).1.region) := by
  refine ⟨fun h => ?_, fun h => ?_, ?_⟩
  · unfold update
    simp [h.ne', h]
  · unfold update
    simp [h.ne, h, not_lt.mpr h.le]
  · have h1 : e.update (0, 0) = ({ rd := e.rd / 2, xc := e.xc + e.rd / 2, tsq := |e.rd * 0| ^ 2 }, .ok .success) := by
      unfold update
      simp
    rw [h1]
    refine ⟨rfl, ?_, ?_, ?_⟩
    · ext x; simp [kept]
    · simp only [region, Set.mem_Icc]; constructor <;> linarith
    · simp only [region, Set.mem_Icc, not_and_or, not_le]
      left; linarith

/-- The hypotheses of C83 are met: the unit interval, a deep cut `2 (x - 1/2) + 1/2 ≤ 0`. -/
example : ∃ e', (init 0 1).update (2, 1 / 2) = (e', .ok .success) ∧ e'.region = Set.Icc 0 (1 / 4) := by
  refine ⟨{ rd := 1 / 8, xc := 1 / 8, tsq := 1 }, ?_, ?_⟩
  · unfold update init
    norm_num [pdiv]
  · simp only [region]; norm_num

/-- A history: a central cut followed by a deep cut in the other direction. -/
example : ∃ (e1 e2 : Ell1d) (x1 : ℝ), Run (init 0 1) [(x1, (1, 0), true), (e1.xc, (-2, 1 / 4), false)] e2 := by
  refine ⟨{ rd := 1 / 4, xc := 1 / 4, tsq := 1 / 4 }, { rd := 1 / 16, xc := 7 / 16, tsq := 1 / 4 }, (init 0 1).xc, ?_⟩
  refine Run.step (l := [_]) (e1 := { rd := 1 / 4, xc := 1 / 4, tsq := 1 / 4 }) (st := .success) (Run.step (l := []) (st := .success) .start ?_ (by simp)) ?_ (by simp)
  · unfold update init
    norm_num
  · unfold update
    norm_num [pdiv]

end Ell1d

end Ellalgo
