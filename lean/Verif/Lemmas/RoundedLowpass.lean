import Verif.Model.RoundedLowpass
import Verif.Lemmas.Lowpass
import Mathlib.Tactic.Linarith

/-! # The loops of `LowpassOracle` in rounded arithmetic: as in `Lemmas/Lowpass`, with the computed responses -/

namespace Ellalgo.Arith

open Matrix LowpassOracle

variable {n : ℕ} (A : Arith)

/-- What a passband violation looks like. -/
def LowPassViol (o : LowpassOracle n) (x : Vec n) (cut : Cut n) : Prop :=
  ∃ k, k < o.nwpass ∧
    ((o.upSq < A.dot (o.spectrum k) x ∧ cut = (o.spectrum k, .pair (A.sub (A.dot (o.spectrum k) x) o.upSq) (A.sub (A.dot (o.spectrum k) x) o.lpSq))) ∨
     (A.dot (o.spectrum k) x < o.lpSq ∧ cut = (-o.spectrum k, .pair (A.add (-A.dot (o.spectrum k) x) o.lpSq) (A.add (-A.dot (o.spectrum k) x) o.upSq))))

theorem lowPassLoop_spec (x : Vec n) (fuel : ℕ) (o : LowpassOracle n) (h1 : o.idx1 < o.nwpass)
    (h2 : o.nwpass ≤ o.mdim) :
    ∃ i < o.nwpass, (A.lowPassLoop x fuel o).1 = { o with idx1 := i } ∧
      (((A.lowPassLoop x fuel o).2 = .ok none ∧ ∀ j < fuel, o.lpSq ≤ A.dot (o.spectrum ((rr 0 o.nwpass)^[j + 1] o.idx1)) x ∧
          A.dot (o.spectrum ((rr 0 o.nwpass)^[j + 1] o.idx1)) x ≤ o.upSq) ∨
       ∃ cut, (A.lowPassLoop x fuel o).2 = .ok (some cut) ∧ A.LowPassViol o x cut) := by
  induction fuel generalizing o with
  | zero => exact ⟨o.idx1, h1, rfl, .inl ⟨rfl, by simp⟩⟩
  | succ fuel ih =>
    have hr : rr 0 o.nwpass o.idx1 < o.nwpass := (rr_mem (Nat.zero_le _) h1).2
    have hrow : ({ o with idx1 := rr 0 o.nwpass o.idx1 } : LowpassOracle n).row (rr 0 o.nwpass o.idx1)
        = .ok (o.spectrum (rr 0 o.nwpass o.idx1)) := if_pos (show _ < o.mdim by omega)
    have hu : A.lowPassLoop x (fuel + 1) o =
        (if A.dot (o.spectrum (rr 0 o.nwpass o.idx1)) x > o.upSq then
          ({ o with idx1 := rr 0 o.nwpass o.idx1 }, .ok (some (o.spectrum (rr 0 o.nwpass o.idx1),
            .pair (A.sub (A.dot (o.spectrum (rr 0 o.nwpass o.idx1)) x) o.upSq) (A.sub (A.dot (o.spectrum (rr 0 o.nwpass o.idx1)) x) o.lpSq))))
         else if A.dot (o.spectrum (rr 0 o.nwpass o.idx1)) x < o.lpSq then
          ({ o with idx1 := rr 0 o.nwpass o.idx1 }, .ok (some (-o.spectrum (rr 0 o.nwpass o.idx1),
            .pair (A.add (-A.dot (o.spectrum (rr 0 o.nwpass o.idx1)) x) o.lpSq) (A.add (-A.dot (o.spectrum (rr 0 o.nwpass o.idx1)) x) o.upSq))))
         else A.lowPassLoop x fuel { o with idx1 := rr 0 o.nwpass o.idx1 }) := by
      rw [lowPassLoop, LowpassOracle.scan]
      dsimp only [lowPassStep]
      rw [show o.turn1.row o.turn1.idx1 = .ok _ from hrow]
      dsimp only [lowPassCut]
      split_ifs <;> rfl
    rw [hu]
    split_ifs with c1 c2
    · exact ⟨_, hr, rfl, .inr ⟨_, rfl, _, hr, .inl ⟨c1, rfl⟩⟩⟩
    · exact ⟨_, hr, rfl, .inr ⟨_, rfl, _, hr, .inr ⟨c2, rfl⟩⟩⟩
    · obtain ⟨i, hi, he, hc⟩ := ih { o with idx1 := rr 0 o.nwpass o.idx1 } hr h2
      refine ⟨i, hi, he, ?_⟩
      rcases hc with ⟨hc, hj⟩ | hc
      · refine .inl ⟨hc, fun j hjl => ?_⟩
        rcases j with _ | j
        · exact ⟨not_lt.mp c2, not_lt.mp c1⟩
        · rw [Function.iterate_succ_apply]; exact hj j (by omega)
      · exact .inr hc

/-- What a stopband violation looks like. -/
def LowStopViol (o : LowpassOracle n) (x : Vec n) (cut : Cut n) : Prop :=
  ∃ k, o.nwstop ≤ k ∧ k < o.mdim ∧
    ((o.spSq < A.dot (o.spectrum k) x ∧ cut = (o.spectrum k, .pair (A.sub (A.dot (o.spectrum k) x) o.spSq) (A.dot (o.spectrum k) x))) ∨
     (A.dot (o.spectrum k) x < 0 ∧ cut = (-o.spectrum k, .pair (-(A.dot (o.spectrum k) x)) (A.add (-A.dot (o.spectrum k) x) o.spSq))))

/-- `fmax`, `kmax` record a stopband response, or nothing. -/
def LowTrack (o : LowpassOracle n) (x : Vec n) (f : WithBot ℝ) (k : ℕ) : Prop :=
  (f = ⊥ ∧ k = 0) ∨ (o.nwstop ≤ k ∧ k < o.mdim ∧ f = ((A.dot (o.spectrum k) x : ℝ) : WithBot ℝ))

theorem lowStopLoop_spec (x : Vec n) (fuel : ℕ) (o : LowpassOracle n) (h1 : o.nwstop ≤ o.idx3)
    (h2 : o.idx3 < o.mdim) (ht : A.LowTrack o x o.fmax o.kmax) :
    ∃ i f k, o.nwstop ≤ i ∧ i < o.mdim ∧ A.LowTrack o x f k ∧ o.fmax ≤ f ∧
      (A.lowStopLoop x fuel o).1 = { o with idx3 := i, fmax := f, kmax := k } ∧
      (((A.lowStopLoop x fuel o).2 = .ok none ∧ ∀ j < fuel,
          0 ≤ A.dot (o.spectrum ((rr o.nwstop o.mdim)^[j + 1] o.idx3)) x ∧
          A.dot (o.spectrum ((rr o.nwstop o.mdim)^[j + 1] o.idx3)) x ≤ o.spSq ∧
          ((A.dot (o.spectrum ((rr o.nwstop o.mdim)^[j + 1] o.idx3)) x : ℝ) : WithBot ℝ) ≤ f) ∨
       ∃ cut, (A.lowStopLoop x fuel o).2 = .ok (some cut) ∧ A.LowStopViol o x cut) := by
  induction fuel generalizing o with
  | zero => exact ⟨o.idx3, o.fmax, o.kmax, h1, h2, ht, le_rfl, rfl, .inl ⟨rfl, by simp⟩⟩
  | succ fuel ih =>
    obtain ⟨hr1, hr2⟩ := rr_mem h1 h2
    set p := rr o.nwstop o.mdim o.idx3 with hp
    have hrow : ({ o with idx3 := p } : LowpassOracle n).row p = .ok (o.spectrum p) := if_pos (show _ < o.mdim by omega)
    have hu : A.lowStopLoop x (fuel + 1) o =
        (if A.dot (o.spectrum p) x > o.spSq then
          ({ o with idx3 := p }, .ok (some (o.spectrum p, .pair (A.sub (A.dot (o.spectrum p) x) o.spSq) (A.dot (o.spectrum p) x))))
         else if A.dot (o.spectrum p) x < 0 then
          ({ o with idx3 := p }, .ok (some (-o.spectrum p, .pair (-(A.dot (o.spectrum p) x)) (A.add (-A.dot (o.spectrum p) x) o.spSq))))
         else if ((A.dot (o.spectrum p) x : ℝ) : WithBot ℝ) > o.fmax then
          A.lowStopLoop x fuel { o with idx3 := p, fmax := ((A.dot (o.spectrum p) x : ℝ) : WithBot ℝ), kmax := p }
         else A.lowStopLoop x fuel { o with idx3 := p }) := by
      rw [lowStopLoop, LowpassOracle.scan]
      dsimp only [lowStopStep]
      rw [show o.turn3.row o.turn3.idx3 = .ok _ from hrow]
      dsimp only [lowStopCut, lowTrack]
      rw [show o.turn3.fmax = o.fmax from rfl]
      split_ifs <;> rfl
    rw [hu]
    split_ifs with c1 c2 c3
    · exact ⟨_, _, _, hr1, hr2, ht, le_rfl, rfl, .inr ⟨_, rfl, _, hr1, hr2, .inl ⟨c1, rfl⟩⟩⟩
    · exact ⟨_, _, _, hr1, hr2, ht, le_rfl, rfl, .inr ⟨_, rfl, _, hr1, hr2, .inr ⟨c2, rfl⟩⟩⟩
    · obtain ⟨i, f, k, a1, a2, a3, a4, a5, a6⟩ :=
        ih { o with idx3 := p, fmax := ((A.dot (o.spectrum p) x : ℝ) : WithBot ℝ), kmax := p } hr1 hr2 (.inr ⟨hr1, hr2, rfl⟩)
      refine ⟨i, f, k, a1, a2, a3, (le_of_lt c3).trans a4, a5, ?_⟩
      rcases a6 with ⟨hc, hj⟩ | hc
      · refine .inl ⟨hc, fun j hjl => ?_⟩
        rcases j with _ | j
        · exact ⟨not_lt.mp c2, not_lt.mp c1, a4⟩
        · rw [Function.iterate_succ_apply]; exact hj j (by omega)
      · exact .inr hc
    · obtain ⟨i, f, k, a1, a2, a3, a4, a5, a6⟩ := ih { o with idx3 := p } hr1 hr2 ht
      refine ⟨i, f, k, a1, a2, a3, a4, a5, ?_⟩
      rcases a6 with ⟨hc, hj⟩ | hc
      · refine .inl ⟨hc, fun j hjl => ?_⟩
        rcases j with _ | j
        · exact ⟨not_lt.mp c2, not_lt.mp c1, (not_lt.mp c3).trans a4⟩
        · rw [Function.iterate_succ_apply]; exact hj j (by omega)
      · exact .inr hc

/-- What a transition band violation looks like. -/
def LowTransViol (o : LowpassOracle n) (x : Vec n) (cut : Cut n) : Prop :=
  ∃ k, o.nwpass ≤ k ∧ k < o.nwstop ∧ A.dot (o.spectrum k) x < 0 ∧ cut = (-o.spectrum k, .scalar (-(A.dot (o.spectrum k) x)))

theorem lowTransLoop_spec (x : Vec n) (fuel : ℕ) (o : LowpassOracle n) (h1 : o.nwpass ≤ o.idx2)
    (h2 : o.idx2 < o.nwstop) (h3 : o.nwstop ≤ o.mdim) :
    ∃ i, o.nwpass ≤ i ∧ i < o.nwstop ∧ (A.lowTransLoop x fuel o).1 = { o with idx2 := i } ∧
      (((A.lowTransLoop x fuel o).2 = .ok none ∧ ∀ j < fuel,
          0 ≤ A.dot (o.spectrum ((rr o.nwpass o.nwstop)^[j + 1] o.idx2)) x) ∨
       ∃ cut, (A.lowTransLoop x fuel o).2 = .ok (some cut) ∧ A.LowTransViol o x cut) := by
  induction fuel generalizing o with
  | zero => exact ⟨o.idx2, h1, h2, rfl, .inl ⟨rfl, by simp⟩⟩
  | succ fuel ih =>
    obtain ⟨hr1, hr2⟩ := rr_mem h1 h2
    set p := rr o.nwpass o.nwstop o.idx2 with hp
    have hrow : ({ o with idx2 := p } : LowpassOracle n).row p = .ok (o.spectrum p) := if_pos (show _ < o.mdim by omega)
    have hu : A.lowTransLoop x (fuel + 1) o =
        (if A.dot (o.spectrum p) x < 0 then
          ({ o with idx2 := p }, .ok (some (-o.spectrum p, .scalar (-(A.dot (o.spectrum p) x)))))
         else A.lowTransLoop x fuel { o with idx2 := p }) := by
      rw [lowTransLoop, LowpassOracle.scan]
      dsimp only [lowTransStep]
      rw [show o.turn2.row o.turn2.idx2 = .ok _ from hrow]
      dsimp only [lowTransCut]
      split_ifs <;> rfl
    rw [hu]
    split_ifs with c1
    · exact ⟨_, hr1, hr2, rfl, .inr ⟨_, rfl, _, hr1, hr2, c1, rfl⟩⟩
    · obtain ⟨i, a1, a2, a3, a4⟩ := ih { o with idx2 := p } hr1 hr2 h3
      refine ⟨i, a1, a2, a3, ?_⟩
      rcases a4 with ⟨hc, hj⟩ | hc
      · refine .inl ⟨hc, fun j hjl => ?_⟩
        rcases j with _ | j
        · exact not_lt.mp c1
        · rw [Function.iterate_succ_apply]; exact hj j (by omega)
      · exact .inr hc

/-! ### The whole of `assess_feas` -/

/-- The object belongs to the design `d` (with any stopband bound) and its indices are in their bands. -/
structure LowGood (d : Spec.LowpassDesign) (o : LowpassOracle n) : Prop where
  mdim : o.mdim = 15 * n
  spectrum : o.spectrum = A.lowRow n (15 * n)
  nwpass : o.nwpass = ⌊d.wpass * (((15 * n : ℕ) : ℝ) - 1)⌋₊ + 1
  nwstop : o.nwstop = ⌊d.wstop * (((15 * n : ℕ) : ℝ) - 1)⌋₊ + 1
  lpSq : o.lpSq = d.lpSq
  upSq : o.upSq = d.upSq
  idx1 : o.idx1 < o.nwpass
  idx2 : o.nwpass < o.nwstop → o.nwpass ≤ o.idx2 ∧ o.idx2 < o.nwstop
  idx3 : o.nwstop < o.mdim → o.nwstop ≤ o.idx3 ∧ o.idx3 < o.mdim

/-- Everything that `assess_feas` checks. -/
structure LowClear (o : LowpassOracle n) (x : Vec n) : Prop where
  pass : ∀ k < o.nwpass, o.lpSq ≤ A.dot (o.spectrum k) x ∧ A.dot (o.spectrum k) x ≤ o.upSq
  stop : ∀ k, o.nwstop ≤ k → k < o.mdim → 0 ≤ A.dot (o.spectrum k) x ∧ A.dot (o.spectrum k) x ≤ o.spSq
  trans : ∀ k, o.nwpass ≤ k → k < o.nwstop → 0 ≤ A.dot (o.spectrum k) x
  first : ∀ h : 0 < n, 0 ≤ x ⟨0, h⟩

/-- `fmax`, `kmax` are the stopband maximum. -/
def LowTracked (o : LowpassOracle n) (x : Vec n) (f : WithBot ℝ) (k : ℕ) : Prop :=
  A.LowTrack o x f k ∧ ∀ k, o.nwstop ≤ k → k < o.mdim → ((A.dot (o.spectrum k) x : ℝ) : WithBot ℝ) ≤ f

theorem lowFeas_spec {d : Spec.LowpassDesign} {o : LowpassOracle n} (ho : A.LowGood d o)
    (hn : 0 < n) (hp : o.nwpass ≤ o.mdim) (hs : o.nwstop ≤ o.mdim) (x : Vec n) :
    A.LowGood d (A.lowFeas o x).1 ∧ (A.lowFeas o x).1.spSq = o.spSq ∧
      (((A.lowFeas o x).2 = .ok none ∧ A.LowClear o x ∧ A.LowTracked o x (A.lowFeas o x).1.fmax (A.lowFeas o x).1.kmax) ∨
       ∃ cut, (A.lowFeas o x).2 = .ok (some cut) ∧
        (A.LowPassViol o x cut ∨ A.LowStopViol o x cut ∨ A.LowTransViol o x cut ∨ FirstCut x cut)) := by
  obtain ⟨i1, hi1, he1, hc1⟩ := A.lowPassLoop_spec x o.nwpass o ho.idx1 hp
  have g1 : A.LowGood d { o with idx1 := i1 } :=
    ⟨ho.mdim, ho.spectrum, ho.nwpass, ho.nwstop, ho.lpSq, ho.upSq, hi1, ho.idx2, ho.idx3⟩
  rcases hc1 with ⟨hc1, hj1⟩ | ⟨cut, hc1, hcut⟩
  swap
  · have e : A.lowFeas o x = ({ o with idx1 := i1 }, .ok (some cut)) := by
      unfold lowFeas
      rw [show A.lowPassLoop x o.nwpass o = ({ o with idx1 := i1 }, .ok (some cut)) from Prod.ext he1 hc1]
    rw [e]
    exact ⟨g1, rfl, .inr ⟨cut, rfl, .inl hcut⟩⟩
  have hpass : ∀ k < o.nwpass, o.lpSq ≤ A.dot (o.spectrum k) x ∧ A.dot (o.spectrum k) x ≤ o.upSq := by
    intro k hk
    obtain ⟨j, hj, rfl⟩ := rr_cover (Nat.zero_le _) ho.idx1 (Nat.zero_le k) hk
    exact hj1 j (by omega)
  have e1 : A.lowFeas o x =
      (match A.lowStopLoop x (o.mdim - o.nwstop) { o with idx1 := i1, fmax := ⊥, kmax := 0 } with
      | (o, .error f) => (o, .error f)
      | (o, .ok (some cut)) => (o, .ok (some cut))
      | (o, .ok none) =>
        match A.lowTransLoop x (o.nwstop - o.nwpass) o with
        | (o, .error f) => (o, .error f)
        | (o, .ok (some cut)) => (o, .ok (some cut))
        | (o, .ok none) => o.lastCheck x) := by
    rw [lowFeas, show A.lowPassLoop x o.nwpass o = ({ o with idx1 := i1 }, .ok none) from Prod.ext he1 hc1]
    rfl
  -- the stopband
  have stopPart : ∃ i f k, A.LowGood d { o with idx1 := i1, idx3 := i, fmax := f, kmax := k } ∧
      (A.lowStopLoop x (o.mdim - o.nwstop) { o with idx1 := i1, fmax := ⊥, kmax := 0 }).1 =
        { o with idx1 := i1, idx3 := i, fmax := f, kmax := k } ∧
      (((A.lowStopLoop x (o.mdim - o.nwstop) { o with idx1 := i1, fmax := ⊥, kmax := 0 }).2 = .ok none ∧ A.LowTracked o x f k ∧
          ∀ k, o.nwstop ≤ k → k < o.mdim → 0 ≤ A.dot (o.spectrum k) x ∧ A.dot (o.spectrum k) x ≤ o.spSq) ∨
       ∃ cut, (A.lowStopLoop x (o.mdim - o.nwstop) { o with idx1 := i1, fmax := ⊥, kmax := 0 }).2 = .ok (some cut) ∧
        A.LowStopViol o x cut) := by
    by_cases hlt : o.nwstop < o.mdim
    · obtain ⟨i, f, k, a1, a2, a3, a4, a5, a6⟩ := A.lowStopLoop_spec x (o.mdim - o.nwstop)
        { o with idx1 := i1, fmax := ⊥, kmax := 0 } (ho.idx3 hlt).1 (ho.idx3 hlt).2 (.inl ⟨rfl, rfl⟩)
      refine ⟨i, f, k, ⟨ho.mdim, ho.spectrum, ho.nwpass, ho.nwstop, ho.lpSq, ho.upSq, hi1, ho.idx2, fun _ => ⟨a1, a2⟩⟩, a5, ?_⟩
      rcases a6 with ⟨hc, hj⟩ | hc
      · have hall : ∀ k, o.nwstop ≤ k → k < o.mdim → 0 ≤ A.dot (o.spectrum k) x ∧ A.dot (o.spectrum k) x ≤ o.spSq ∧
            ((A.dot (o.spectrum k) x : ℝ) : WithBot ℝ) ≤ f := by
          intro k hk1 hk2
          obtain ⟨j, hjl, rfl⟩ := rr_cover (ho.idx3 hlt).1 (ho.idx3 hlt).2 hk1 hk2
          exact hj j hjl
        exact .inl ⟨hc, ⟨a3, fun k h1 h2 => (hall k h1 h2).2.2⟩, fun k h1 h2 => ⟨(hall k h1 h2).1, (hall k h1 h2).2.1⟩⟩
      · exact .inr hc
    · have h0 : o.mdim - o.nwstop = 0 := by omega
      refine ⟨o.idx3, ⊥, 0, ⟨ho.mdim, ho.spectrum, ho.nwpass, ho.nwstop, ho.lpSq, ho.upSq, hi1, ho.idx2, ho.idx3⟩, ?_, ?_⟩
      · rw [h0]; rfl
      · rw [h0]
        exact .inl ⟨rfl, ⟨.inl ⟨rfl, rfl⟩, fun k h1 h2 => by omega⟩, fun k h1 h2 => by omega⟩
  obtain ⟨i3, f, km, g2, he2, hc2⟩ := stopPart
  rcases hc2 with ⟨hc2, htr, hstop⟩ | ⟨cut, hc2, hcut⟩
  swap
  · have e : A.lowFeas o x = ({ o with idx1 := i1, idx3 := i3, fmax := f, kmax := km }, .ok (some cut)) := by
      rw [e1, show A.lowStopLoop x (o.mdim - o.nwstop) { o with idx1 := i1, fmax := ⊥, kmax := 0 } = (_, .ok (some cut)) from
        Prod.ext he2 hc2]
    rw [e]
    exact ⟨g2, rfl, .inr ⟨cut, rfl, .inr (.inl hcut)⟩⟩
  have e2 : A.lowFeas o x =
      (match A.lowTransLoop x (o.nwstop - o.nwpass) { o with idx1 := i1, idx3 := i3, fmax := f, kmax := km } with
        | (o, .error f) => (o, .error f)
        | (o, .ok (some cut)) => (o, .ok (some cut))
        | (o, .ok none) => o.lastCheck x) := by
    rw [e1, show A.lowStopLoop x (o.mdim - o.nwstop) { o with idx1 := i1, fmax := ⊥, kmax := 0 } = (_, .ok none) from
        Prod.ext he2 hc2]
  -- the transition band
  have transPart : ∃ i, A.LowGood d { o with idx1 := i1, idx2 := i, idx3 := i3, fmax := f, kmax := km } ∧
      (A.lowTransLoop x (o.nwstop - o.nwpass) { o with idx1 := i1, idx3 := i3, fmax := f, kmax := km }).1 =
        { o with idx1 := i1, idx2 := i, idx3 := i3, fmax := f, kmax := km } ∧
      (((A.lowTransLoop x (o.nwstop - o.nwpass) { o with idx1 := i1, idx3 := i3, fmax := f, kmax := km }).2 = .ok none ∧
          ∀ k, o.nwpass ≤ k → k < o.nwstop → 0 ≤ A.dot (o.spectrum k) x) ∨
       ∃ cut, (A.lowTransLoop x (o.nwstop - o.nwpass) { o with idx1 := i1, idx3 := i3, fmax := f, kmax := km }).2 =
        .ok (some cut) ∧ A.LowTransViol o x cut) := by
    by_cases hlt : o.nwpass < o.nwstop
    · obtain ⟨i, a1, a2, a3, a4⟩ := A.lowTransLoop_spec x (o.nwstop - o.nwpass)
        { o with idx1 := i1, idx3 := i3, fmax := f, kmax := km } (ho.idx2 hlt).1 (ho.idx2 hlt).2 hs
      refine ⟨i, ⟨ho.mdim, ho.spectrum, ho.nwpass, ho.nwstop, ho.lpSq, ho.upSq, hi1, fun _ => ⟨a1, a2⟩, g2.idx3⟩, a3, ?_⟩
      rcases a4 with ⟨hc, hj⟩ | hc
      · refine .inl ⟨hc, fun k hk1 hk2 => ?_⟩
        obtain ⟨j, hjl, rfl⟩ := rr_cover (ho.idx2 hlt).1 (ho.idx2 hlt).2 hk1 hk2
        exact hj j hjl
      · exact .inr hc
    · have h0 : o.nwstop - o.nwpass = 0 := by omega
      refine ⟨o.idx2, ⟨ho.mdim, ho.spectrum, ho.nwpass, ho.nwstop, ho.lpSq, ho.upSq, hi1, ho.idx2, g2.idx3⟩, ?_, ?_⟩
      · rw [h0]; rfl
      · rw [h0]
        exact .inl ⟨rfl, fun k h1 h2 => by omega⟩
  obtain ⟨i2, g3, he3, hc3⟩ := transPart
  rcases hc3 with ⟨hc3, htrans⟩ | ⟨cut, hc3, hcut⟩
  swap
  · have e : A.lowFeas o x = ({ o with idx1 := i1, idx2 := i2, idx3 := i3, fmax := f, kmax := km }, .ok (some cut)) := by
      rw [e2, show A.lowTransLoop x (o.nwstop - o.nwpass) { o with idx1 := i1, idx3 := i3, fmax := f, kmax := km } =
        (_, .ok (some cut)) from Prod.ext he3 hc3]
    rw [e]
    exact ⟨g3, rfl, .inr ⟨cut, rfl, .inr (.inr (.inl hcut))⟩⟩
  have e3 : A.lowFeas o x =
      LowpassOracle.lastCheck { o with idx1 := i1, idx2 := i2, idx3 := i3, fmax := f, kmax := km } x := by
    rw [e2, show A.lowTransLoop x (o.nwstop - o.nwpass) { o with idx1 := i1, idx3 := i3, fmax := f, kmax := km } =
        (_, .ok none) from Prod.ext he3 hc3]
  rw [e3, LowpassOracle.lastCheck, dif_pos hn]
  split_ifs with h
  · exact ⟨g3, rfl, .inr ⟨_, rfl, .inr (.inr (.inr ⟨hn, h, rfl⟩))⟩⟩
  · exact ⟨g3, rfl, .inl ⟨rfl, ⟨hpass, hstop, htrans, fun _ => not_lt.mp h⟩, htr⟩⟩


end Ellalgo.Arith
