import Verif.Model.Rounded
import Verif.Model.Lowpass

/-!
# `lowpass_oracle.py` in rounded arithmetic

The code of `Model/Lowpass` with a rounding after every operation; `np.cos` is the rounded function. With `Arith.exact` these definitions are the ones of `Model/Lowpass`.
-/

namespace Ellalgo

open Matrix

namespace Arith

variable (A : Arith) {n : ℕ}

/-- `lowpass_oracle.py:104`, entry `k` of `np.linspace(0, np.pi, mdim)`: a multiple of the step; the last entry is `np.pi`. -/
noncomputable def lowOmega (mdim k : ℕ) : ℝ :=
  if k + 1 = mdim ∧ 1 < mdim then A.rnd Real.pi else A.add (A.mul k (A.div (A.sub (A.rnd Real.pi) (A.rnd 0)) (mdim - 1 : ℕ))) (A.rnd 0)

/-- `lowpass_oracle.py:110-111`: row `k` of the spectrum matrix. -/
noncomputable def lowRow (n mdim k : ℕ) : Vec n := fun j =>
  if (j : ℕ) = 0 then 1 else A.mul (A.rnd 2) (A.rnd (Real.cos (A.mul (A.lowOmega mdim k) (j : ℕ))))

/-- `lowpass_oracle.py:114-115`: the number of rows up to a band edge. -/
noncomputable def lowEdge (mdim : ℕ) (w : ℝ) : ℕ := ⌊A.mul w (A.rnd ((mdim - 1 : ℤ) : ℝ))⌋₊ + 1

/-- `lowpass_oracle.py:66-129`, `__init__`. -/
noncomputable def lowInit (n : ℕ) (wpass wstop lpSq upSq spSq : ℝ) : LowpassOracle n where
  mdim := 15 * n                                                             -- 103
  spectrum := A.lowRow n (15 * n)                                            -- 104-111
  nwpass := A.lowEdge (15 * n) wpass                                         -- 114
  nwstop := A.lowEdge (15 * n) wstop                                         -- 115
  lpSq := lpSq                                                               -- 118-120
  upSq := upSq
  spSq := spSq
  idx1 := 0                                                                  -- 123-125
  idx2 := A.lowEdge (15 * n) wpass
  idx3 := A.lowEdge (15 * n) wstop
  fmax := ⊥                                                                  -- 128-129
  kmax := 0

/-- `lowpass_oracle.py:158-160`: the next passband index. -/
def _root_.Ellalgo.LowpassOracle.turn1 (o : LowpassOracle n) : LowpassOracle n := { o with idx1 := if o.idx1 + 1 = o.nwpass then 0 else o.idx1 + 1 }

/-- `lowpass_oracle.py:181-183`: the next stopband index. -/
def _root_.Ellalgo.LowpassOracle.turn3 (o : LowpassOracle n) : LowpassOracle n := { o with idx3 := if o.idx3 + 1 = o.mdim then o.nwstop else o.idx3 + 1 }

/-- `lowpass_oracle.py:204-206`: the next index in the transition band. -/
def _root_.Ellalgo.LowpassOracle.turn2 (o : LowpassOracle n) : LowpassOracle n := { o with idx2 := if o.idx2 + 1 = o.nwstop then o.nwpass else o.idx2 + 1 }

/-- `lowpass_oracle.py:163-173`: the cut for a row of the passband. -/
noncomputable def lowPassCut (o : LowpassOracle n) (col x : Vec n) : Option (Cut n) :=
  let v := A.dot col x                                                       -- 163
  if v > o.upSq then some (col, .pair (A.sub v o.upSq) (A.sub v o.lpSq))     -- 166-168
  else if v < o.lpSq then some (-col, .pair (A.add (-v) o.lpSq) (A.add (-v) o.upSq))      -- 171-173
  else none

/-- `lowpass_oracle.py:186-194`: the cut for a row of the stopband. -/
noncomputable def lowStopCut (o : LowpassOracle n) (col x : Vec n) : Option (Cut n) :=
  let v := A.dot col x                                                       -- 186
  if v > o.spSq then some (col, .pair (A.sub v o.spSq) v)                    -- 189-190
  else if v < 0 then some (-col, .pair (-v) (A.add (-v) o.spSq))             -- 193-194
  else none

/-- `lowpass_oracle.py:197-199`: the largest response so far. -/
noncomputable def lowTrack (o : LowpassOracle n) (v : ℝ) : LowpassOracle n := if (v : WithBot ℝ) > o.fmax then { o with fmax := v, kmax := o.idx3 } else o

/-- `lowpass_oracle.py:209-213`: the cut for a row of the transition band. -/
noncomputable def lowTransCut (col x : Vec n) : Option (Cut n) :=
  if A.dot col x < 0 then some (-col, .scalar (-A.dot col x)) else none

/-- `lowpass_oracle.py:158-173`, one turn of the passband loop; no cut means that the loop goes on. -/
noncomputable def lowPassStep (x : Vec n) (o : LowpassOracle n) : LowpassOracle n × Except Fault (Option (Cut n)) :=
  match o.turn1.row o.turn1.idx1 with                                        -- 158-162
  | .error f => (o.turn1, .error f)
  | .ok col => (o.turn1, .ok (A.lowPassCut o col x))

/-- `lowpass_oracle.py:181-199`, one turn of the stopband loop. -/
noncomputable def lowStopStep (x : Vec n) (o : LowpassOracle n) : LowpassOracle n × Except Fault (Option (Cut n)) :=
  match o.turn3.row o.turn3.idx3 with                                        -- 181-185
  | .error f => (o.turn3, .error f)
  | .ok col =>
    match A.lowStopCut o col x with
    | some cut => (o.turn3, .ok (some cut))
    | none => (lowTrack o.turn3 (A.dot col x), .ok none)

/-- `lowpass_oracle.py:204-213`, one turn of the loop over the transition band. -/
noncomputable def lowTransStep (x : Vec n) (o : LowpassOracle n) : LowpassOracle n × Except Fault (Option (Cut n)) :=
  match o.turn2.row o.turn2.idx2 with                                        -- 204-208
  | .error f => (o.turn2, .error f)
  | .ok col => (o.turn2, .ok (A.lowTransCut col x))

/-- A loop: turns until there is a cut or an exception, at most `fuel`. -/
def _root_.Ellalgo.LowpassOracle.scan (step : LowpassOracle n → LowpassOracle n × Except Fault (Option (Cut n))) : (fuel : ℕ) → LowpassOracle n → LowpassOracle n × Except Fault (Option (Cut n))
  | 0, o => (o, .ok none)
  | fuel + 1, o =>
    match step o with
    | (o, .error f) => (o, .error f)
    | (o, .ok (some cut)) => (o, .ok (some cut))
    | (o, .ok none) => scan step fuel o

/-- `lowpass_oracle.py:157-173`, the passband loop with `fuel` iterations left. -/
noncomputable def lowPassLoop (x : Vec n) : ℕ → LowpassOracle n → LowpassOracle n × Except Fault (Option (Cut n)) := LowpassOracle.scan (A.lowPassStep x)

/-- `lowpass_oracle.py:180-199`, the stopband loop. -/
noncomputable def lowStopLoop (x : Vec n) : ℕ → LowpassOracle n → LowpassOracle n × Except Fault (Option (Cut n)) := LowpassOracle.scan (A.lowStopStep x)

/-- `lowpass_oracle.py:203-213`, the transition band loop. -/
noncomputable def lowTransLoop (x : Vec n) : ℕ → LowpassOracle n → LowpassOracle n × Except Fault (Option (Cut n)) := LowpassOracle.scan (A.lowTransStep x)

/-- `lowpass_oracle.py:131-222`, `assess_feas`. -/
noncomputable def lowFeas (o : LowpassOracle n) (x : Vec n) : LowpassOracle n × Except Fault (Option (Cut n)) :=
  match A.lowPassLoop x o.nwpass o with                                      -- 157
  | (o, .error f) => (o, .error f)
  | (o, .ok (some cut)) => (o, .ok (some cut))
  | (o, .ok none) =>
    match A.lowStopLoop x (o.mdim - o.nwstop) { o with fmax := ⊥, kmax := 0 } with   -- 176-180
    | (o, .error f) => (o, .error f)
    | (o, .ok (some cut)) => (o, .ok (some cut))
    | (o, .ok none) =>
      match A.lowTransLoop x (o.nwstop - o.nwpass) o with                    -- 203
      | (o, .error f) => (o, .error f)
      | (o, .ok (some cut)) => (o, .ok (some cut))
      | (o, .ok none) => o.lastCheck x

/-- `lowpass_oracle.py:224-251`, `assess_optim`. -/
noncomputable def lowOptim (o : LowpassOracle n) (xc : Vec n) (gamma : ℝ) : LowpassOracle n × Except Fault (Cut n × Option ℝ) :=
  match A.lowFeas { o with spSq := gamma } xc with                           -- 244-247
  | (o, .error f) => (o, .error f)
  | (o, .ok (some cut)) => (o, .ok (cut, none))                              -- 248
  | (o, .ok none) => o.report                                                -- 251

/-! ### Exact arithmetic -/

theorem exact_lowOmega {mdim : ℕ} (h : 1 < mdim) (k : ℕ) : exact.lowOmega mdim k = LowpassOracle.omega mdim k := by
  have h1 : ((mdim - 1 : ℕ) : ℝ) = (mdim : ℝ) - 1 := by rw [Nat.cast_sub h.le]; simp
  have h2 : (mdim : ℝ) - 1 ≠ 0 := by
    have : (1 : ℝ) < mdim := by exact_mod_cast h
    linarith
  unfold lowOmega LowpassOracle.omega
  simp only [exact, Arith.add, Arith.mul, Arith.div, Arith.sub, h1]
  split_ifs with hk
  · have : (k : ℝ) = mdim - 1 := by rw [← hk.1]; push_cast; ring
    rw [this]; field_simp
  · field_simp; ring

theorem exact_lowInit (hn : 0 < n) (wpass wstop lpSq upSq spSq : ℝ) : exact.lowInit n wpass wstop lpSq upSq spSq = LowpassOracle.init n wpass wstop lpSq upSq spSq := by
  have h1 : 1 < 15 * n := by omega
  have hrow : exact.lowRow n (15 * n) = LowpassOracle.spectrumRow n (15 * n) := by
    funext k j
    unfold lowRow LowpassOracle.spectrumRow
    rw [exact_lowOmega h1]
    rfl
  have hedge : ∀ w, exact.lowEdge (15 * n) w = ⌊w * (((15 * n : ℕ) : ℝ) - 1)⌋₊ + 1 := by
    intro w
    unfold lowEdge
    simp only [exact, Arith.mul]
    push_cast
    rfl
  simp only [lowInit, LowpassOracle.init, hrow, hedge]

theorem exact_lowPassLoop (x : Vec n) (k : ℕ) (o : LowpassOracle n) : exact.lowPassLoop x k o = LowpassOracle.passLoop x k o := by
  induction k generalizing o with
  | zero => rfl
  | succ k ih =>
    rw [lowPassLoop, LowpassOracle.scan, LowpassOracle.passLoop]
    dsimp only [lowPassStep]
    have : (o.turn1.row o.turn1.idx1) = LowpassOracle.row { o with idx1 := if o.idx1 + 1 = o.nwpass then 0 else o.idx1 + 1 } (if o.idx1 + 1 = o.nwpass then 0 else o.idx1 + 1) := rfl
    rw [← this]
    cases o.turn1.row o.turn1.idx1 with
    | error f => rfl
    | ok col =>
      dsimp only [lowPassCut]
      rw [show exact.dot col x = col ⬝ᵥ x from rfl]
      by_cases h1 : col ⬝ᵥ x > o.upSq
      · rw [if_pos h1, if_pos h1]; rfl
      · rw [if_neg h1, if_neg h1]
        by_cases h2 : col ⬝ᵥ x < o.lpSq
        · rw [if_pos h2, if_pos h2]; rfl
        · rw [if_neg h2, if_neg h2]; exact ih _

theorem exact_lowStopLoop (x : Vec n) (k : ℕ) (o : LowpassOracle n) : exact.lowStopLoop x k o = LowpassOracle.stopLoop x k o := by
  induction k generalizing o with
  | zero => rfl
  | succ k ih =>
    rw [lowStopLoop, LowpassOracle.scan, LowpassOracle.stopLoop]
    dsimp only [lowStopStep]
    have : (o.turn3.row o.turn3.idx3) = LowpassOracle.row { o with idx3 := if o.idx3 + 1 = o.mdim then o.nwstop else o.idx3 + 1 } (if o.idx3 + 1 = o.mdim then o.nwstop else o.idx3 + 1) := rfl
    rw [← this]
    cases o.turn3.row o.turn3.idx3 with
    | error f => rfl
    | ok col =>
      dsimp only [lowStopCut]
      rw [show exact.dot col x = col ⬝ᵥ x from rfl]
      by_cases h1 : col ⬝ᵥ x > o.spSq
      · rw [if_pos h1, if_pos h1]; rfl
      · rw [if_neg h1, if_neg h1]
        by_cases h2 : col ⬝ᵥ x < 0
        · rw [if_pos h2, if_pos h2]; rfl
        · rw [if_neg h2, if_neg h2]
          dsimp only [lowTrack]
          by_cases h3 : ((col ⬝ᵥ x : ℝ) : WithBot ℝ) > o.fmax
          · rw [if_pos (show _ > o.turn3.fmax from h3), if_pos h3]; exact ih _
          · rw [if_neg (show ¬ _ > o.turn3.fmax from h3), if_neg h3]; exact ih _

theorem exact_lowTransLoop (x : Vec n) (k : ℕ) (o : LowpassOracle n) : exact.lowTransLoop x k o = LowpassOracle.transLoop x k o := by
  induction k generalizing o with
  | zero => rfl
  | succ k ih =>
    rw [lowTransLoop, LowpassOracle.scan, LowpassOracle.transLoop]
    dsimp only [lowTransStep]
    have : (o.turn2.row o.turn2.idx2) = LowpassOracle.row { o with idx2 := if o.idx2 + 1 = o.nwstop then o.nwpass else o.idx2 + 1 } (if o.idx2 + 1 = o.nwstop then o.nwpass else o.idx2 + 1) := rfl
    rw [← this]
    cases o.turn2.row o.turn2.idx2 with
    | error f => rfl
    | ok col =>
      dsimp only [lowTransCut]
      rw [show exact.dot col x = col ⬝ᵥ x from rfl]
      by_cases h1 : col ⬝ᵥ x < 0
      · rw [if_pos h1, if_pos h1]; rfl
      · rw [if_neg h1, if_neg h1]; exact ih _

theorem exact_lowFeas (o : LowpassOracle n) (x : Vec n) : exact.lowFeas o x = o.assessFeas x := by
  unfold lowFeas LowpassOracle.assessFeas
  simp only [exact_lowPassLoop, exact_lowStopLoop, exact_lowTransLoop]
  rfl

theorem exact_lowOptim (o : LowpassOracle n) (x : Vec n) (γ : ℝ) : exact.lowOptim o x γ = o.assessOptim x γ := by
  unfold lowOptim LowpassOracle.assessOptim
  rw [exact_lowFeas]
  rfl

/-! ### The largest response -/

theorem lowTrack_ne (o : LowpassOracle n) (v : ℝ) : (lowTrack o v).fmax ≠ ⊥ := by
  unfold lowTrack
  split_ifs with h
  · exact WithBot.coe_ne_bot
  · intro h0
    rw [h0] at h
    exact h (WithBot.bot_lt_coe v)

/-- What holds after every turn holds after the loop, if it is preserved, or if there is a turn. -/
theorem _root_.Ellalgo.LowpassOracle.scan_inv {step : LowpassOracle n → LowpassOracle n × Except Fault (Option (Cut n))} {I : LowpassOracle n → Prop} (h : ∀ o, I o → I (step o).1) (k : ℕ) (o : LowpassOracle n) (ho : I o) :
    I (LowpassOracle.scan step k o).1 := by
  induction k generalizing o with
  | zero => exact ho
  | succ k ih =>
    rw [LowpassOracle.scan]
    have := h o ho
    rcases hs : step o with ⟨o1, f | _ | c⟩ <;> rw [hs] at this
    · exact this
    · exact ih _ this
    · exact this

theorem lowStop_ne (x : Vec n) (k : ℕ) (o o' : LowpassOracle n) (h : A.lowStopLoop x (k + 1) o = (o', .ok none)) : o'.fmax ≠ ⊥ := by
  have key : ∀ o o', A.lowStopStep x o = (o', .ok none) → o'.fmax ≠ ⊥ := by
    intro o o' h
    unfold lowStopStep at h
    split at h
    · simp at h
    · split at h
      · simp at h
      · simp only [Prod.mk.injEq, and_true] at h
        rw [← h]; exact lowTrack_ne _ _
  induction k generalizing o with
  | zero =>
    rw [lowStopLoop, LowpassOracle.scan] at h
    rcases hs : A.lowStopStep x o with ⟨o1, f | _ | c⟩ <;> rw [hs] at h
    · simp at h
    · simp only [LowpassOracle.scan, Prod.mk.injEq, and_true] at h
      rw [← h]; exact key _ _ hs
    · simp at h
  | succ k ih =>
    rw [lowStopLoop, LowpassOracle.scan] at h
    rcases hs : A.lowStopStep x o with ⟨o1, f | _ | c⟩ <;> rw [hs] at h
    · simp at h
    · exact ih o1 h
    · simp at h

theorem lowTrans_fmax (x : Vec n) (k : ℕ) (o : LowpassOracle n) (y : WithBot ℝ) (h : o.fmax = y) : (A.lowTransLoop x k o).1.fmax = y := by
  refine LowpassOracle.scan_inv (I := fun o => o.fmax = y) (fun o ho => ?_) k o h
  unfold lowTransStep
  split <;> exact ho

theorem lowPass_dims (x : Vec n) (k : ℕ) (o : LowpassOracle n) {m p : ℕ} (h : o.mdim = m ∧ o.nwstop = p) : (A.lowPassLoop x k o).1.mdim = m ∧ (A.lowPassLoop x k o).1.nwstop = p := by
  refine LowpassOracle.scan_inv (I := fun o => o.mdim = m ∧ o.nwstop = p) (fun o ho => ?_) k o h
  unfold lowPassStep
  split <;> exact ho

theorem lowStop_dims (x : Vec n) (k : ℕ) (o : LowpassOracle n) {m p : ℕ} (h : o.mdim = m ∧ o.nwstop = p) : (A.lowStopLoop x k o).1.mdim = m ∧ (A.lowStopLoop x k o).1.nwstop = p := by
  refine LowpassOracle.scan_inv (I := fun o => o.mdim = m ∧ o.nwstop = p) (fun o ho => ?_) k o h
  unfold lowStopStep
  split
  · exact ho
  · split
    · exact ho
    · unfold lowTrack; split_ifs <;> exact ho

theorem lowTrans_dims (x : Vec n) (k : ℕ) (o : LowpassOracle n) {m p : ℕ} (h : o.mdim = m ∧ o.nwstop = p) : (A.lowTransLoop x k o).1.mdim = m ∧ (A.lowTransLoop x k o).1.nwstop = p := by
  refine LowpassOracle.scan_inv (I := fun o => o.mdim = m ∧ o.nwstop = p) (fun o ho => ?_) k o h
  unfold lowTransStep
  split <;> exact ho

/-- `assess_feas` keeps the dimensions; if there are stopband points and it finds no violation, then it has found the largest response. -/
theorem lowFeas_dims (o : LowpassOracle n) (x : Vec n) : (A.lowFeas o x).1.mdim = o.mdim ∧ (A.lowFeas o x).1.nwstop = o.nwstop ∧
    (o.nwstop < o.mdim → ∀ o', A.lowFeas o x = (o', .ok none) → o'.fmax ≠ ⊥) := by
  have h1 := A.lowPass_dims x o.nwpass o ⟨rfl, rfl⟩
  unfold lowFeas
  rcases hs : A.lowPassLoop x o.nwpass o with ⟨o1, f | _ | c⟩ <;> rw [hs] at h1 <;> dsimp only at h1 ⊢
  · exact ⟨h1.1, h1.2, by simp⟩
  · have h2 := A.lowStop_dims x (o1.mdim - o1.nwstop) { o1 with fmax := ⊥, kmax := 0 } ⟨rfl, rfl⟩
    rcases hs2 : A.lowStopLoop x (o1.mdim - o1.nwstop) { o1 with fmax := ⊥, kmax := 0 } with ⟨o2, f | _ | c⟩ <;> rw [hs2] at h2 <;> dsimp only at h2 ⊢
    · exact ⟨h2.1.trans h1.1, h2.2.trans h1.2, by simp⟩
    · have h3 := A.lowTrans_dims x (o2.nwstop - o2.nwpass) o2 ⟨rfl, rfl⟩
      have h4 := A.lowTrans_fmax x (o2.nwstop - o2.nwpass) o2 _ rfl
      rcases hs3 : A.lowTransLoop x (o2.nwstop - o2.nwpass) o2 with ⟨o3, f | _ | c⟩ <;> rw [hs3] at h3 h4 <;> dsimp only at h3 h4 ⊢
      · exact ⟨h3.1.trans (h2.1.trans h1.1), h3.2.trans (h2.2.trans h1.2), by simp⟩
      · have h5 : (o3.lastCheck x).1 = o3 := by unfold LowpassOracle.lastCheck; split_ifs <;> rfl
        refine ⟨by rw [h5]; exact h3.1.trans (h2.1.trans h1.1), by rw [h5]; exact h3.2.trans (h2.2.trans h1.2), fun hlt o' ho' => ?_⟩
        have h6 : o' = o3 := by rw [← h5, ho']
        rw [h6, h4]
        obtain ⟨k, hk⟩ : ∃ k, o1.mdim - o1.nwstop = k + 1 := ⟨o1.mdim - o1.nwstop - 1, by rw [h1.1, h1.2]; omega⟩
        rw [hk] at hs2
        exact A.lowStop_ne x k _ _ hs2
      · exact ⟨h3.1.trans (h2.1.trans h1.1), h3.2.trans (h2.2.trans h1.2), by simp⟩
    · exact ⟨h2.1.trans h1.1, h2.2.trans h1.2, by simp⟩
  · exact ⟨h1.1, h1.2, by simp⟩

end Arith

end Ellalgo
