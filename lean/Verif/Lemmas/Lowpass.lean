import Verif.Model.Lowpass
import Verif.Spec.Lowpass
import Verif.Spec.Cut
import Mathlib.Tactic.Linarith
import Mathlib.Tactic.Ring
import Mathlib.Tactic.FieldSimp
import Mathlib.Tactic.Positivity

/-! # The loops of `LowpassOracle` -/

namespace Ellalgo.LowpassOracle

open Matrix

variable {n : ℕ}

/-- One step of a round-robin index over `[lo, hi)`. -/
def rr (lo hi i : ℕ) : ℕ := if i + 1 = hi then lo else i + 1

theorem rr_mem {lo hi i : ℕ} (h1 : lo ≤ i) (h2 : i < hi) : lo ≤ rr lo hi i ∧ rr lo hi i < hi := by
  unfold rr; split_ifs <;> omega

/-- From any position, `hi - lo` steps visit every index of `[lo, hi)`. -/
theorem rr_cover {lo hi i k : ℕ} (h1 : lo ≤ i) (h2 : i < hi) (h3 : lo ≤ k) (h4 : k < hi) :
    ∃ j, j < hi - lo ∧ (rr lo hi)^[j + 1] i = k := by
  have key : ∀ j, i + j < hi → (rr lo hi)^[j] i = i + j := by
    intro j
    induction j with
    | zero => simp
    | succ j ih =>
      intro hj
      rw [Function.iterate_succ_apply', ih (by omega)]
      unfold rr; rw [if_neg (by omega)]; omega
  have wrap : ∀ j, lo + j < hi → (rr lo hi)^[hi - i + j] i = lo + j := by
    intro j
    induction j with
    | zero =>
      intro _
      rw [Nat.add_zero, show hi - i = (hi - i - 1) + 1 by omega, Function.iterate_succ_apply', key _ (by omega)]
      unfold rr; rw [if_pos (by omega)]; rfl
    | succ j ih =>
      intro hj
      rw [← Nat.add_assoc, Function.iterate_succ_apply', ih (by omega)]
      unfold rr; rw [if_neg (by omega)]; omega
  by_cases hk : i < k
  · exact ⟨k - i - 1, by omega, by rw [show k - i - 1 + 1 = k - i by omega, key _ (by omega)]; omega⟩
  · refine ⟨hi - i + (k - lo) - 1, by omega, ?_⟩
    rw [show hi - i + (k - lo) - 1 + 1 = hi - i + (k - lo) by omega, wrap _ (by omega)]; omega

/-- What a passband violation looks like. -/
def PassCut (o : LowpassOracle n) (x : Vec n) (cut : Cut n) : Prop :=
  ∃ k, k < o.nwpass ∧
    ((o.upSq < o.spectrum k ⬝ᵥ x ∧ cut = (o.spectrum k, .pair (o.spectrum k ⬝ᵥ x - o.upSq) (o.spectrum k ⬝ᵥ x - o.lpSq))) ∨
     (o.spectrum k ⬝ᵥ x < o.lpSq ∧ cut = (-o.spectrum k, .pair (-(o.spectrum k ⬝ᵥ x) + o.lpSq) (-(o.spectrum k ⬝ᵥ x) + o.upSq))))

theorem passLoop_spec (x : Vec n) (fuel : ℕ) (o : LowpassOracle n) (h1 : o.idx1 < o.nwpass)
    (h2 : o.nwpass ≤ o.mdim) :
    ∃ i < o.nwpass, (passLoop x fuel o).1 = { o with idx1 := i } ∧
      (((passLoop x fuel o).2 = .ok none ∧ ∀ j < fuel, o.lpSq ≤ o.spectrum ((rr 0 o.nwpass)^[j + 1] o.idx1) ⬝ᵥ x ∧
          o.spectrum ((rr 0 o.nwpass)^[j + 1] o.idx1) ⬝ᵥ x ≤ o.upSq) ∨
       ∃ cut, (passLoop x fuel o).2 = .ok (some cut) ∧ PassCut o x cut) := by
  induction fuel generalizing o with
  | zero => exact ⟨o.idx1, h1, rfl, .inl ⟨rfl, by simp⟩⟩
  | succ fuel ih =>
    have hr : rr 0 o.nwpass o.idx1 < o.nwpass := (rr_mem (Nat.zero_le _) h1).2
    have hrow : ({ o with idx1 := rr 0 o.nwpass o.idx1 } : LowpassOracle n).row (rr 0 o.nwpass o.idx1)
        = .ok (o.spectrum (rr 0 o.nwpass o.idx1)) := if_pos (show _ < o.mdim by omega)
    have hu : passLoop x (fuel + 1) o =
        (if o.spectrum (rr 0 o.nwpass o.idx1) ⬝ᵥ x > o.upSq then
          ({ o with idx1 := rr 0 o.nwpass o.idx1 }, .ok (some (o.spectrum (rr 0 o.nwpass o.idx1),
            .pair (o.spectrum (rr 0 o.nwpass o.idx1) ⬝ᵥ x - o.upSq) (o.spectrum (rr 0 o.nwpass o.idx1) ⬝ᵥ x - o.lpSq))))
         else if o.spectrum (rr 0 o.nwpass o.idx1) ⬝ᵥ x < o.lpSq then
          ({ o with idx1 := rr 0 o.nwpass o.idx1 }, .ok (some (-o.spectrum (rr 0 o.nwpass o.idx1),
            .pair (-(o.spectrum (rr 0 o.nwpass o.idx1) ⬝ᵥ x) + o.lpSq) (-(o.spectrum (rr 0 o.nwpass o.idx1) ⬝ᵥ x) + o.upSq))))
         else passLoop x fuel { o with idx1 := rr 0 o.nwpass o.idx1 }) := by
      rw [passLoop]
      change (match ({ o with idx1 := rr 0 o.nwpass o.idx1 } : LowpassOracle n).row (rr 0 o.nwpass o.idx1) with
        | .error f => _ | .ok col => _) = _
      rw [hrow]
      rfl
    rw [hu]
    split_ifs with c1 c2
    · exact ⟨_, hr, rfl, .inr ⟨_, rfl, _, hr, .inl ⟨c1, rfl⟩⟩⟩
    · exact ⟨_, hr, rfl, .inr ⟨_, rfl, _, hr, .inr ⟨c2, rfl⟩⟩⟩
    · obtain ⟨i, hi, he, hc⟩ := ih { o with idx1 := rr 0 o.nwpass o.idx1 } hr h2
      refine ⟨i, hi, he, ?_⟩
      rcases hc with ⟨hc, hj⟩ | hc
      · refine .inl ⟨hc, fun j hjl => ?_⟩
        rcases j with _ | j
        · exact ⟨not_lt.mp c2, not_lt.mp c1⟩
        · rw [Function.iterate_succ_apply]; exact hj j (by omega)
      · exact .inr hc

/-- What a stopband violation looks like. -/
def StopCut (o : LowpassOracle n) (x : Vec n) (cut : Cut n) : Prop :=
  ∃ k, o.nwstop ≤ k ∧ k < o.mdim ∧
    ((o.spSq < o.spectrum k ⬝ᵥ x ∧ cut = (o.spectrum k, .pair (o.spectrum k ⬝ᵥ x - o.spSq) (o.spectrum k ⬝ᵥ x))) ∨
     (o.spectrum k ⬝ᵥ x < 0 ∧ cut = (-o.spectrum k, .pair (-(o.spectrum k ⬝ᵥ x)) (-(o.spectrum k ⬝ᵥ x) + o.spSq))))

/-- `fmax`, `kmax` record a stopband response, or nothing. -/
def Track (o : LowpassOracle n) (x : Vec n) (f : WithBot ℝ) (k : ℕ) : Prop :=
  (f = ⊥ ∧ k = 0) ∨ (o.nwstop ≤ k ∧ k < o.mdim ∧ f = ((o.spectrum k ⬝ᵥ x : ℝ) : WithBot ℝ))

theorem stopLoop_spec (x : Vec n) (fuel : ℕ) (o : LowpassOracle n) (h1 : o.nwstop ≤ o.idx3)
    (h2 : o.idx3 < o.mdim) (ht : Track o x o.fmax o.kmax) :
    ∃ i f k, o.nwstop ≤ i ∧ i < o.mdim ∧ Track o x f k ∧ o.fmax ≤ f ∧
      (stopLoop x fuel o).1 = { o with idx3 := i, fmax := f, kmax := k } ∧
      (((stopLoop x fuel o).2 = .ok none ∧ ∀ j < fuel,
          0 ≤ o.spectrum ((rr o.nwstop o.mdim)^[j + 1] o.idx3) ⬝ᵥ x ∧
          o.spectrum ((rr o.nwstop o.mdim)^[j + 1] o.idx3) ⬝ᵥ x ≤ o.spSq ∧
          ((o.spectrum ((rr o.nwstop o.mdim)^[j + 1] o.idx3) ⬝ᵥ x : ℝ) : WithBot ℝ) ≤ f) ∨
       ∃ cut, (stopLoop x fuel o).2 = .ok (some cut) ∧ StopCut o x cut) := by
  induction fuel generalizing o with
  | zero => exact ⟨o.idx3, o.fmax, o.kmax, h1, h2, ht, le_rfl, rfl, .inl ⟨rfl, by simp⟩⟩
  | succ fuel ih =>
    obtain ⟨hr1, hr2⟩ := rr_mem h1 h2
    set p := rr o.nwstop o.mdim o.idx3 with hp
    have hrow : ({ o with idx3 := p } : LowpassOracle n).row p = .ok (o.spectrum p) := if_pos (show _ < o.mdim by omega)
    have hu : stopLoop x (fuel + 1) o =
        (if o.spectrum p ⬝ᵥ x > o.spSq then
          ({ o with idx3 := p }, .ok (some (o.spectrum p, .pair (o.spectrum p ⬝ᵥ x - o.spSq) (o.spectrum p ⬝ᵥ x))))
         else if o.spectrum p ⬝ᵥ x < 0 then
          ({ o with idx3 := p }, .ok (some (-o.spectrum p, .pair (-(o.spectrum p ⬝ᵥ x)) (-(o.spectrum p ⬝ᵥ x) + o.spSq))))
         else if ((o.spectrum p ⬝ᵥ x : ℝ) : WithBot ℝ) > o.fmax then
          stopLoop x fuel { o with idx3 := p, fmax := ((o.spectrum p ⬝ᵥ x : ℝ) : WithBot ℝ), kmax := p }
         else stopLoop x fuel { o with idx3 := p }) := by
      rw [stopLoop]
      change (match ({ o with idx3 := p } : LowpassOracle n).row p with | .error f => _ | .ok col => _) = _
      rw [hrow]
      rfl
    rw [hu]
    split_ifs with c1 c2 c3
    · exact ⟨_, _, _, hr1, hr2, ht, le_rfl, rfl, .inr ⟨_, rfl, _, hr1, hr2, .inl ⟨c1, rfl⟩⟩⟩
    · exact ⟨_, _, _, hr1, hr2, ht, le_rfl, rfl, .inr ⟨_, rfl, _, hr1, hr2, .inr ⟨c2, rfl⟩⟩⟩
    · obtain ⟨i, f, k, a1, a2, a3, a4, a5, a6⟩ :=
        ih { o with idx3 := p, fmax := ((o.spectrum p ⬝ᵥ x : ℝ) : WithBot ℝ), kmax := p } hr1 hr2 (.inr ⟨hr1, hr2, rfl⟩)
      refine ⟨i, f, k, a1, a2, a3, (le_of_lt c3).trans a4, a5, ?_⟩
      rcases a6 with ⟨hc, hj⟩ | hc
      · refine .inl ⟨hc, fun j hjl => ?_⟩
        rcases j with _ | j
        · exact ⟨not_lt.mp c2, not_lt.mp c1, a4⟩
        · rw [Function.iterate_succ_apply]; exact hj j (by omega)
      · exact .inr hc
    · obtain ⟨i, f, k, a1, a2, a3, a4, a5, a6⟩ := ih { o with idx3 := p } hr1 hr2 ht
      refine ⟨i, f, k, a1, a2, a3, a4, a5, ?_⟩
      rcases a6 with ⟨hc, hj⟩ | hc
      · refine .inl ⟨hc, fun j hjl => ?_⟩
        rcases j with _ | j
        · exact ⟨not_lt.mp c2, not_lt.mp c1, (not_lt.mp c3).trans a4⟩
        · rw [Function.iterate_succ_apply]; exact hj j (by omega)
      · exact .inr hc

/-- What a transition band violation looks like. -/
def TransCut (o : LowpassOracle n) (x : Vec n) (cut : Cut n) : Prop :=
  ∃ k, o.nwpass ≤ k ∧ k < o.nwstop ∧ o.spectrum k ⬝ᵥ x < 0 ∧ cut = (-o.spectrum k, .scalar (-(o.spectrum k ⬝ᵥ x)))

theorem transLoop_spec (x : Vec n) (fuel : ℕ) (o : LowpassOracle n) (h1 : o.nwpass ≤ o.idx2)
    (h2 : o.idx2 < o.nwstop) (h3 : o.nwstop ≤ o.mdim) :
    ∃ i, o.nwpass ≤ i ∧ i < o.nwstop ∧ (transLoop x fuel o).1 = { o with idx2 := i } ∧
      (((transLoop x fuel o).2 = .ok none ∧ ∀ j < fuel,
          0 ≤ o.spectrum ((rr o.nwpass o.nwstop)^[j + 1] o.idx2) ⬝ᵥ x) ∨
       ∃ cut, (transLoop x fuel o).2 = .ok (some cut) ∧ TransCut o x cut) := by
  induction fuel generalizing o with
  | zero => exact ⟨o.idx2, h1, h2, rfl, .inl ⟨rfl, by simp⟩⟩
  | succ fuel ih =>
    obtain ⟨hr1, hr2⟩ := rr_mem h1 h2
    set p := rr o.nwpass o.nwstop o.idx2 with hp
    have hrow : ({ o with idx2 := p } : LowpassOracle n).row p = .ok (o.spectrum p) := if_pos (show _ < o.mdim by omega)
    have hu : transLoop x (fuel + 1) o =
        (if o.spectrum p ⬝ᵥ x < 0 then
          ({ o with idx2 := p }, .ok (some (-o.spectrum p, .scalar (-(o.spectrum p ⬝ᵥ x)))))
         else transLoop x fuel { o with idx2 := p }) := by
      rw [transLoop]
      change (match ({ o with idx2 := p } : LowpassOracle n).row p with | .error f => _ | .ok col => _) = _
      rw [hrow]
      rfl
    rw [hu]
    split_ifs with c1
    · exact ⟨_, hr1, hr2, rfl, .inr ⟨_, rfl, _, hr1, hr2, c1, rfl⟩⟩
    · obtain ⟨i, a1, a2, a3, a4⟩ := ih { o with idx2 := p } hr1 hr2 h3
      refine ⟨i, a1, a2, a3, ?_⟩
      rcases a4 with ⟨hc, hj⟩ | hc
      · refine .inl ⟨hc, fun j hjl => ?_⟩
        rcases j with _ | j
        · exact not_lt.mp c1
        · rw [Function.iterate_succ_apply]; exact hj j (by omega)
      · exact .inr hc

/-! ### The whole of `assess_feas` -/

/-- The object belongs to the design `d` (with any stopband bound) and its indices are in their bands. -/
structure Good (d : Spec.LowpassDesign) (o : LowpassOracle n) : Prop where
  mdim : o.mdim = 15 * n
  spectrum : o.spectrum = spectrumRow n (15 * n)
  nwpass : o.nwpass = ⌊d.wpass * (((15 * n : ℕ) : ℝ) - 1)⌋₊ + 1
  nwstop : o.nwstop = ⌊d.wstop * (((15 * n : ℕ) : ℝ) - 1)⌋₊ + 1
  lpSq : o.lpSq = d.lpSq
  upSq : o.upSq = d.upSq
  idx1 : o.idx1 < o.nwpass
  idx2 : o.nwpass < o.nwstop → o.nwpass ≤ o.idx2 ∧ o.idx2 < o.nwstop
  idx3 : o.nwstop < o.mdim → o.nwstop ≤ o.idx3 ∧ o.idx3 < o.mdim

/-- The first coefficient is negative. -/
def FirstCut (x : Vec n) (cut : Cut n) : Prop :=
  ∃ h : 0 < n, x ⟨0, h⟩ < 0 ∧ cut = ((fun j : Fin n => if (j : ℕ) = 0 then (-1 : ℝ) else 0), CutChoice.scalar (-x ⟨0, h⟩))

/-- Everything that `assess_feas` checks. -/
structure Clear (o : LowpassOracle n) (x : Vec n) : Prop where
  pass : ∀ k < o.nwpass, o.lpSq ≤ o.spectrum k ⬝ᵥ x ∧ o.spectrum k ⬝ᵥ x ≤ o.upSq
  stop : ∀ k, o.nwstop ≤ k → k < o.mdim → 0 ≤ o.spectrum k ⬝ᵥ x ∧ o.spectrum k ⬝ᵥ x ≤ o.spSq
  trans : ∀ k, o.nwpass ≤ k → k < o.nwstop → 0 ≤ o.spectrum k ⬝ᵥ x
  first : ∀ h : 0 < n, 0 ≤ x ⟨0, h⟩

/-- `fmax`, `kmax` are the stopband maximum. -/
def Tracked (o : LowpassOracle n) (x : Vec n) (f : WithBot ℝ) (k : ℕ) : Prop :=
  Track o x f k ∧ ∀ k, o.nwstop ≤ k → k < o.mdim → ((o.spectrum k ⬝ᵥ x : ℝ) : WithBot ℝ) ≤ f

theorem assessFeas_spec {d : Spec.LowpassDesign} {o : LowpassOracle n} (ho : Good d o)
    (hn : 0 < n) (hp : o.nwpass ≤ o.mdim) (hs : o.nwstop ≤ o.mdim) (x : Vec n) :
    Good d (assessFeas o x).1 ∧ (assessFeas o x).1.spSq = o.spSq ∧
      (((assessFeas o x).2 = .ok none ∧ Clear o x ∧ Tracked o x (assessFeas o x).1.fmax (assessFeas o x).1.kmax) ∨
       ∃ cut, (assessFeas o x).2 = .ok (some cut) ∧
        (PassCut o x cut ∨ StopCut o x cut ∨ TransCut o x cut ∨ FirstCut x cut)) := by
  obtain ⟨i1, hi1, he1, hc1⟩ := passLoop_spec x o.nwpass o ho.idx1 hp
  have g1 : Good d { o with idx1 := i1 } :=
    ⟨ho.mdim, ho.spectrum, ho.nwpass, ho.nwstop, ho.lpSq, ho.upSq, hi1, ho.idx2, ho.idx3⟩
  rcases hc1 with ⟨hc1, hj1⟩ | ⟨cut, hc1, hcut⟩
  swap
  · have e : assessFeas o x = ({ o with idx1 := i1 }, .ok (some cut)) := by
      unfold assessFeas
      rw [show passLoop x o.nwpass o = ({ o with idx1 := i1 }, .ok (some cut)) from Prod.ext he1 hc1]
    rw [e]
    exact ⟨g1, rfl, .inr ⟨cut, rfl, .inl hcut⟩⟩
  have hpass : ∀ k < o.nwpass, o.lpSq ≤ o.spectrum k ⬝ᵥ x ∧ o.spectrum k ⬝ᵥ x ≤ o.upSq := by
    intro k hk
    obtain ⟨j, hj, rfl⟩ := rr_cover (Nat.zero_le _) ho.idx1 (Nat.zero_le k) hk
    exact hj1 j (by omega)
  have e1 : assessFeas o x =
      (match stopLoop x (o.mdim - o.nwstop) { o with idx1 := i1, fmax := ⊥, kmax := 0 } with
      | (o, .error f) => (o, .error f)
      | (o, .ok (some cut)) => (o, .ok (some cut))
      | (o, .ok none) =>
        match transLoop x (o.nwstop - o.nwpass) o with
        | (o, .error f) => (o, .error f)
        | (o, .ok (some cut)) => (o, .ok (some cut))
        | (o, .ok none) => lastCheck o x) := by
    rw [assessFeas, show passLoop x o.nwpass o = ({ o with idx1 := i1 }, .ok none) from Prod.ext he1 hc1]
    rfl
  -- the stopband
  have stopPart : ∃ i f k, Good d { o with idx1 := i1, idx3 := i, fmax := f, kmax := k } ∧
      (stopLoop x (o.mdim - o.nwstop) { o with idx1 := i1, fmax := ⊥, kmax := 0 }).1 =
        { o with idx1 := i1, idx3 := i, fmax := f, kmax := k } ∧
      (((stopLoop x (o.mdim - o.nwstop) { o with idx1 := i1, fmax := ⊥, kmax := 0 }).2 = .ok none ∧ Tracked o x f k ∧
          ∀ k, o.nwstop ≤ k → k < o.mdim → 0 ≤ o.spectrum k ⬝ᵥ x ∧ o.spectrum k ⬝ᵥ x ≤ o.spSq) ∨
       ∃ cut, (stopLoop x (o.mdim - o.nwstop) { o with idx1 := i1, fmax := ⊥, kmax := 0 }).2 = .ok (some cut) ∧
        StopCut o x cut) := by
    by_cases hlt : o.nwstop < o.mdim
    · obtain ⟨i, f, k, a1, a2, a3, a4, a5, a6⟩ := stopLoop_spec x (o.mdim - o.nwstop)
        { o with idx1 := i1, fmax := ⊥, kmax := 0 } (ho.idx3 hlt).1 (ho.idx3 hlt).2 (.inl ⟨rfl, rfl⟩)
      refine ⟨i, f, k, ⟨ho.mdim, ho.spectrum, ho.nwpass, ho.nwstop, ho.lpSq, ho.upSq, hi1, ho.idx2, fun _ => ⟨a1, a2⟩⟩, a5, ?_⟩
      rcases a6 with ⟨hc, hj⟩ | hc
      · have hall : ∀ k, o.nwstop ≤ k → k < o.mdim → 0 ≤ o.spectrum k ⬝ᵥ x ∧ o.spectrum k ⬝ᵥ x ≤ o.spSq ∧
            ((o.spectrum k ⬝ᵥ x : ℝ) : WithBot ℝ) ≤ f := by
          intro k hk1 hk2
          obtain ⟨j, hjl, rfl⟩ := rr_cover (ho.idx3 hlt).1 (ho.idx3 hlt).2 hk1 hk2
          exact hj j hjl
        exact .inl ⟨hc, ⟨a3, fun k h1 h2 => (hall k h1 h2).2.2⟩, fun k h1 h2 => ⟨(hall k h1 h2).1, (hall k h1 h2).2.1⟩⟩
      · exact .inr hc
    · have h0 : o.mdim - o.nwstop = 0 := by omega
      refine ⟨o.idx3, ⊥, 0, ⟨ho.mdim, ho.spectrum, ho.nwpass, ho.nwstop, ho.lpSq, ho.upSq, hi1, ho.idx2, ho.idx3⟩, ?_, ?_⟩
      · rw [h0]; rfl
      · rw [h0]
        exact .inl ⟨rfl, ⟨.inl ⟨rfl, rfl⟩, fun k h1 h2 => by omega⟩, fun k h1 h2 => by omega⟩
  obtain ⟨i3, f, km, g2, he2, hc2⟩ := stopPart
  rcases hc2 with ⟨hc2, htr, hstop⟩ | ⟨cut, hc2, hcut⟩
  swap
  · have e : assessFeas o x = ({ o with idx1 := i1, idx3 := i3, fmax := f, kmax := km }, .ok (some cut)) := by
      rw [e1, show stopLoop x (o.mdim - o.nwstop) { o with idx1 := i1, fmax := ⊥, kmax := 0 } = (_, .ok (some cut)) from
        Prod.ext he2 hc2]
    rw [e]
    exact ⟨g2, rfl, .inr ⟨cut, rfl, .inr (.inl hcut)⟩⟩
  have e2 : assessFeas o x =
      (match transLoop x (o.nwstop - o.nwpass) { o with idx1 := i1, idx3 := i3, fmax := f, kmax := km } with
        | (o, .error f) => (o, .error f)
        | (o, .ok (some cut)) => (o, .ok (some cut))
        | (o, .ok none) => lastCheck o x) := by
    rw [e1, show stopLoop x (o.mdim - o.nwstop) { o with idx1 := i1, fmax := ⊥, kmax := 0 } = (_, .ok none) from
        Prod.ext he2 hc2]
  -- the transition band
  have transPart : ∃ i, Good d { o with idx1 := i1, idx2 := i, idx3 := i3, fmax := f, kmax := km } ∧
      (transLoop x (o.nwstop - o.nwpass) { o with idx1 := i1, idx3 := i3, fmax := f, kmax := km }).1 =
        { o with idx1 := i1, idx2 := i, idx3 := i3, fmax := f, kmax := km } ∧
      (((transLoop x (o.nwstop - o.nwpass) { o with idx1 := i1, idx3 := i3, fmax := f, kmax := km }).2 = .ok none ∧
          ∀ k, o.nwpass ≤ k → k < o.nwstop → 0 ≤ o.spectrum k ⬝ᵥ x) ∨
       ∃ cut, (transLoop x (o.nwstop - o.nwpass) { o with idx1 := i1, idx3 := i3, fmax := f, kmax := km }).2 =
        .ok (some cut) ∧ TransCut o x cut) := by
    by_cases hlt : o.nwpass < o.nwstop
    · obtain ⟨i, a1, a2, a3, a4⟩ := transLoop_spec x (o.nwstop - o.nwpass)
        { o with idx1 := i1, idx3 := i3, fmax := f, kmax := km } (ho.idx2 hlt).1 (ho.idx2 hlt).2 hs
      refine ⟨i, ⟨ho.mdim, ho.spectrum, ho.nwpass, ho.nwstop, ho.lpSq, ho.upSq, hi1, fun _ => ⟨a1, a2⟩, g2.idx3⟩, a3, ?_⟩
      rcases a4 with ⟨hc, hj⟩ | hc
      · refine .inl ⟨hc, fun k hk1 hk2 => ?_⟩
        obtain ⟨j, hjl, rfl⟩ := rr_cover (ho.idx2 hlt).1 (ho.idx2 hlt).2 hk1 hk2
        exact hj j hjl
      · exact .inr hc
    · have h0 : o.nwstop - o.nwpass = 0 := by omega
      refine ⟨o.idx2, ⟨ho.mdim, ho.spectrum, ho.nwpass, ho.nwstop, ho.lpSq, ho.upSq, hi1, ho.idx2, g2.idx3⟩, ?_, ?_⟩
      · rw [h0]; rfl
      · rw [h0]
        exact .inl ⟨rfl, fun k h1 h2 => by omega⟩
  obtain ⟨i2, g3, he3, hc3⟩ := transPart
  rcases hc3 with ⟨hc3, htrans⟩ | ⟨cut, hc3, hcut⟩
  swap
  · have e : assessFeas o x = ({ o with idx1 := i1, idx2 := i2, idx3 := i3, fmax := f, kmax := km }, .ok (some cut)) := by
      rw [e2, show transLoop x (o.nwstop - o.nwpass) { o with idx1 := i1, idx3 := i3, fmax := f, kmax := km } =
        (_, .ok (some cut)) from Prod.ext he3 hc3]
    rw [e]
    exact ⟨g3, rfl, .inr ⟨cut, rfl, .inr (.inr (.inl hcut))⟩⟩
  have e3 : assessFeas o x =
      lastCheck { o with idx1 := i1, idx2 := i2, idx3 := i3, fmax := f, kmax := km } x := by
    rw [e2, show transLoop x (o.nwstop - o.nwpass) { o with idx1 := i1, idx3 := i3, fmax := f, kmax := km } =
        (_, .ok none) from Prod.ext he3 hc3]
  rw [e3, lastCheck, dif_pos hn]
  split_ifs with h
  · exact ⟨g3, rfl, .inr ⟨_, rfl, .inr (.inr (.inr ⟨hn, h, rfl⟩))⟩⟩
  · exact ⟨g3, rfl, .inl ⟨rfl, ⟨hpass, hstop, htrans, fun _ => not_lt.mp h⟩, htr⟩⟩

/-! ### From indices to frequencies -/

theorem row_dot (k : ℕ) (x : Vec n) : spectrumRow n (15 * n) k ⬝ᵥ x = Spec.powerSpectrum x (Spec.grid n k) := by
  unfold spectrumRow Spec.powerSpectrum dotProduct omega Spec.grid
  refine Finset.sum_congr rfl fun j _ => ?_
  push_cast
  split_ifs with h
  · rw [h]; simp
  · rw [show Real.pi * k / (15 * (n : ℝ) - 1) * (j : ℕ) = (j : ℕ) * (k * (Real.pi / (15 * (n : ℝ) - 1))) by ring]
    ring

theorem fifteen_pos (hn : 0 < n) : (0 : ℝ) < 15 * n - 1 := by
  have : (1 : ℝ) ≤ n := by exact_mod_cast hn
  linarith

theorem grid_le_iff (hn : 0 < n) {w : ℝ} (hw : 0 ≤ w) (k : ℕ) :
    Spec.grid n k ≤ w * Real.pi ↔ k < ⌊w * (((15 * n : ℕ) : ℝ) - 1)⌋₊ + 1 := by
  have h := fifteen_pos hn
  push_cast
  rw [Nat.lt_succ_iff, Nat.le_floor_iff (by positivity)]
  unfold Spec.grid
  rw [mul_div_assoc', div_le_iff₀ h, show w * Real.pi * (15 * (n : ℝ) - 1) = w * (15 * n - 1) * Real.pi by ring,
    mul_le_mul_iff_left₀ Real.pi_pos]

theorem floor_le (hn : 0 < n) {w : ℝ} (h1 : w ≤ 1) : ⌊w * (((15 * n : ℕ) : ℝ) - 1)⌋₊ + 1 ≤ 15 * n := by
  have h := fifteen_pos hn
  have h2 : ⌊w * (((15 * n : ℕ) : ℝ) - 1)⌋₊ ≤ ⌊((15 * n - 1 : ℕ) : ℝ)⌋₊ := by
    refine Nat.floor_mono ?_
    rw [Nat.cast_sub (by omega)]
    push_cast
    nlinarith
  rw [Nat.floor_natCast] at h2
  omega

variable {d : Spec.LowpassDesign} {o : LowpassOracle n}

theorem Good.nwpass_le (ho : Good d o) (hd : d.Proper) (hn : 0 < n) : o.nwpass ≤ o.mdim := by
  rw [ho.nwpass, ho.mdim]; exact floor_le hn hd.wpass_le

theorem Good.nwstop_le (ho : Good d o) (hd : d.Proper) (hn : 0 < n) : o.nwstop ≤ o.mdim := by
  rw [ho.nwstop, ho.mdim]; exact floor_le hn hd.wstop_le

theorem Good.pass_iff (ho : Good d o) (hd : d.Proper) (hn : 0 < n) (k : ℕ) :
    k < o.nwpass ↔ Spec.grid n k ≤ d.wpass * Real.pi := by
  rw [grid_le_iff hn hd.wpass_nonneg, ho.nwpass]

theorem Good.stop_iff (ho : Good d o) (hd : d.Proper) (hn : 0 < n) (k : ℕ) :
    o.nwstop ≤ k ↔ d.wstop * Real.pi < Spec.grid n k := by
  rw [← not_lt, ← not_le (a := Spec.grid n k), grid_le_iff hn hd.wstop_nonneg, ho.nwstop]

theorem Good.dot (ho : Good d o) (k : ℕ) (x : Vec n) :
    o.spectrum k ⬝ᵥ x = Spec.powerSpectrum x (Spec.grid n k) := by rw [ho.spectrum, row_dot]

theorem Good.clear_iff (ho : Good d o) (hd : d.Proper) (hn : 0 < n) (x : Vec n) :
    Clear o x ↔ x ∈ d.Feasible n o.spSq := by
  have hm := ho.mdim
  have hp := ho.nwpass_le hd hn
  have hs := ho.nwstop_le hd hn
  constructor
  · intro h
    refine ⟨⟨fun k hk h1 => ?_, fun k hk h1 => ?_, fun k hk h1 h2 => ?_, h.first⟩, fun k hk h1 => ?_⟩
    · have := h.pass k ((ho.pass_iff hd hn k).mpr h1)
      rwa [ho.dot, ho.lpSq, ho.upSq] at this
    · have := (h.stop k ((ho.stop_iff hd hn k).mpr h1) (by omega)).1
      rwa [ho.dot] at this
    · have := h.trans k (not_lt.mp fun hc => absurd ((ho.pass_iff hd hn k).mp hc) (not_le.mpr h1))
        (not_le.mp fun hc => absurd ((ho.stop_iff hd hn k).mp hc) (not_lt.mpr h2))
      rwa [ho.dot] at this
    · have := (h.stop k ((ho.stop_iff hd hn k).mpr h1) (by omega)).2
      rwa [ho.dot] at this
  · rintro ⟨hb, hst⟩
    refine ⟨fun k hk => ?_, fun k h1 h2 => ?_, fun k h1 h2 => ?_, hb.first⟩
    · rw [ho.dot, ho.lpSq, ho.upSq]; exact hb.pass k (by omega) ((ho.pass_iff hd hn k).mp hk)
    · rw [ho.dot]; exact ⟨hb.stop k (by omega) ((ho.stop_iff hd hn k).mp h1), hst k (by omega) ((ho.stop_iff hd hn k).mp h1)⟩
    · rw [ho.dot]
      exact hb.trans k (by omega) (not_le.mp fun hc => absurd ((ho.pass_iff hd hn k).mpr hc) (by omega))
        (not_lt.mp fun hc => absurd ((ho.stop_iff hd hn k).mpr hc) (by omega))

theorem init_good (n : ℕ) (d : Spec.LowpassDesign) (sp : ℝ) :
    Good d (init n d.wpass d.wstop d.lpSq d.upSq sp) where
  mdim := rfl
  spectrum := rfl
  nwpass := rfl
  nwstop := rfl
  lpSq := rfl
  upSq := rfl
  idx1 := Nat.succ_pos _
  idx2 := fun h => ⟨le_rfl, h⟩
  idx3 := fun h => ⟨le_rfl, h⟩

end Ellalgo.LowpassOracle
