import Verif.Props.RoundedScale
import Verif.Model.RoundedStable
import Verif.Lemmas.Loops

/-!
# C138: rescaled cuts and `EllStable` in floating point
-/

namespace Ellalgo

open Matrix Spec

theorem forUp_rel {σ τ : Type*} (R : ℕ → σ → τ → Prop) (f : ℕ → σ → σ) (g : ℕ → τ → τ) : ∀ (k lo : ℕ) (s : σ) (t : τ), R lo s t →
    (∀ j s t, lo ≤ j → j < lo + k → R j s t → R (j + 1) (f j s) (g j t)) → R (lo + k) (forUp f k lo s) (forUp g k lo t)
  | 0, _, _, _, h, _ => h
  | k + 1, lo, s, t, h, hs => by
    have := forUp_rel R f g k (lo + 1) (f lo s) (g lo t) (hs lo s t le_rfl (by omega) h)
      fun j s t h1 h2 h3 => hs j s t (by omega) (by omega) h3
    rwa [show lo + 1 + k = lo + (k + 1) by omega] at this

theorem forRange_rel {σ τ : Type*} (R : ℕ → σ → τ → Prop) {f : ℕ → σ → σ} {g : ℕ → τ → τ} {lo hi : ℕ} {s : σ} {t : τ} (hle : lo ≤ hi) (h : R lo s t)
    (hs : ∀ j s t, lo ≤ j → j < hi → R j s t → R (j + 1) (f j s) (g j t)) : R hi (forRange lo hi f s) (forRange lo hi g t) := by
  have := forUp_rel R f g (hi - lo) lo s t h fun j s t h1 h2 h3 => hs j s t h1 (by omega) h3
  rwa [Nat.add_sub_cancel' hle] at this

theorem forDown_rel {σ τ : Type*} (R : σ → τ → Prop) {f : ℕ → σ → σ} {g : ℕ → τ → τ} {lo : ℕ} : ∀ {hi : ℕ} {s : σ} {t : τ}, R s t →
    (∀ i s t, lo < i → i ≤ hi → R s t → R (f i s) (g i t)) → R (forDown lo f hi s) (forDown lo g hi t)
  | 0, _, _, h, _ => h
  | hi + 1, s, t, h, hs => by
    unfold forDown
    split_ifs with hlt
    · exact forDown_rel R (hs _ _ _ hlt le_rfl h) fun i s t h1 h2 h3 => hs i s t h1 (by omega) h3
    · exact h

/-- Equal on and below the diagonal. -/
def LowEq (m' m : ℕ → ℕ → ℝ) : Prop := ∀ i j, j ≤ i → m' i j = m i j

/-- Every entry multiplied by `c`. -/
def ArrScale (c : ℝ) (w' w : ℕ → ℝ) : Prop := ∀ i, w' i = c * w i

/-- The entries of row `a` right of the diagonal up to column `b - 1` multiplied by `c`. -/
def RowScale (c : ℝ) (a b : ℕ) (m' m : ℕ → ℕ → ℝ) : Prop := ∀ k, a < k → k < b → m' a k = c * m a k

theorem LowEq.set {m' m : ℕ → ℕ → ℝ} (h : LowEq m' m) (i j : ℕ) (v : ℝ) : LowEq (set2 m' i j v) (set2 m i j v) := by
  intro r q hq
  unfold set2
  split_ifs
  · rfl
  · exact h r q hq

theorem LowEq.set_up {m' m : ℕ → ℕ → ℝ} (h : LowEq m' m) {i j : ℕ} (hij : i < j) (v' v : ℝ) : LowEq (set2 m' i j v') (set2 m i j v) := by
  intro r q hq
  rw [set2_ne (by omega), set2_ne (by omega)]
  exact h r q hq

theorem RowScale.set_low {c : ℝ} {a b : ℕ} {m' m : ℕ → ℕ → ℝ} (h : RowScale c a b m' m) {i j : ℕ} (hij : j ≤ i) (v' v : ℝ) :
    RowScale c a b (set2 m' i j v') (set2 m i j v) := by
  intro k h1 h2
  rw [set2_ne (by omega), set2_ne (by omega)]
  exact h k h1 h2

theorem ArrScale.set {c : ℝ} {w' w : ℕ → ℝ} (h : ArrScale c w' w) (i : ℕ) {v' v : ℝ} (hv : v' = c * v) : ArrScale c (set1 w' i v') (set1 w i v) := by
  intro k
  unfold set1
  split_ifs
  · exact hv
  · exact h k

namespace Arith

variable {A : Arith} {c : ℝ} (r : RndScale A c)
include r

theorem fwd_scale (n : ℕ) {m' m : ℕ → ℕ → ℝ} {w' w : ℕ → ℝ} (hm : LowEq m' m) (hw : ArrScale c w' w) :
    LowEq (A.fwd n m' w').1 (A.fwd n m w).1 ∧ ArrScale c (A.fwd n m' w').2 (A.fwd n m w).2 ∧
      ∀ a, RowScale c a n (A.fwd n m' w').1 (A.fwd n m w).1 := by
  have key := forRange_rel (fun J (s t : (ℕ → ℕ → ℝ) × (ℕ → ℝ)) => LowEq s.1 t.1 ∧ ArrScale c s.2 t.2 ∧ ∀ a < J, RowScale c a n s.1 t.1)
    (f := fun j st => forRange (j + 1) n (fun i st => A.fwdStep j i st) st) (g := fun j st => forRange (j + 1) n (fun i st => A.fwdStep j i st) st)
    (lo := 0) (hi := n - 1) (s := (m', w')) (t := (m, w)) (Nat.zero_le _) ⟨hm, hw, fun a h => absurd h (Nat.not_lt_zero a)⟩
    (by
      rintro j s t _ hj ⟨h1, h2, h3⟩
      have inner := forRange_rel (fun I (s t : (ℕ → ℕ → ℝ) × (ℕ → ℝ)) => LowEq s.1 t.1 ∧ ArrScale c s.2 t.2 ∧ (∀ a < j, RowScale c a n s.1 t.1) ∧ RowScale c j I s.1 t.1)
        (f := fun i st => A.fwdStep j i st) (g := fun i st => A.fwdStep j i st) (lo := j + 1) (hi := n) (s := s) (t := t) (by omega)
        ⟨h1, h2, h3, fun k h4 h5 => by omega⟩
        (by
          rintro i s t hi1 hi2 ⟨g1, g2, g3, g4⟩
          have e : A.mul (s.1 i j) (s.2 j) = c * A.mul (t.1 i j) (t.2 j) := by rw [g1 i j (by omega), g2 j, r.mulr]
          unfold Arith.fwdStep
          refine ⟨g1.set_up (by omega) _ _, ?_, ?_, ?_⟩
          · refine g2.set i ?_
            simp only [set2_self]
            rw [e, g2 i, r.sub]
          · intro a ha k h1 h2
            simp only
            rw [set2_ne (by omega), set2_ne (by omega)]
            exact g3 a ha k h1 h2
          · intro k h1 h2
            simp only
            by_cases hk : k = i
            · subst hk
              rw [set2_self, set2_self, e]
            · rw [set2_ne (by omega), set2_ne (by omega)]
              exact g4 k h1 (by omega))
      refine ⟨inner.1, inner.2.1, fun a ha => ?_⟩
      rcases Nat.lt_succ_iff_lt_or_eq.mp ha with h | h
      · exact inner.2.2.1 a h
      · subst h; exact inner.2.2.2)
  refine ⟨key.1, key.2.1, fun a k h1 h2 => ?_⟩
  exact key.2.2 a (by omega) k h1 h2

theorem invDiag_scale (n : ℕ) {m' m : ℕ → ℕ → ℝ} {w' w : ℕ → ℝ} (hm : LowEq m' m) (hw : ArrScale c w' w) :
    ArrScale c (A.invDiag n m' w') (A.invDiag n m w) := by
  unfold Arith.invDiag
  refine forRange_rel (fun _ s t => ArrScale c s t) (Nat.zero_le n) hw fun i s t _ _ h => ?_
  refine h.set i ?_
  rw [h i, hm i i le_rfl, r.mull]

theorem omegaSum_scale (n : ℕ) {w' w z' z : ℕ → ℝ} (hw : ArrScale c w' w) (hz : ArrScale c z' z) :
    A.omegaSum n w' z' = c ^ 2 * A.omegaSum n w z := by
  unfold Arith.omegaSum
  refine forRange_rel (fun _ (s t : ℝ) => s = c ^ 2 * t) (Nat.zero_le n) (mul_zero _).symm fun i s t _ _ h => ?_
  rw [h, hw i, hz i, r.mul2, r.sq.add]

theorem bwd_scale (n : ℕ) {m' m : ℕ → ℕ → ℝ} {z' z : ℕ → ℝ} (hm : LowEq m' m) (hz : ArrScale c z' z) :
    ArrScale c (A.bwd n m' z') (A.bwd n m z) := by
  unfold Arith.bwd
  refine forDown_rel (ArrScale c) hz fun i s t h1 h2 h => ?_
  refine forRange_rel (fun _ s t => ArrScale c s t) (by omega) h fun j s t h3 h4 h => ?_
  refine h.set (i - 1) ?_
  rw [h (i - 1), h j, hm j (i - 1) (by omega), r.mulr, r.sub]

theorem rankOne_scale (n : ℕ) {m' m : ℕ → ℕ → ℝ} {z' z v' v : ℕ → ℝ} {o' o : ℝ} (hm : LowEq m' m) (hu : ∀ a, RowScale c a n m' m)
    (hz : ArrScale c z' z) (hv : ArrScale c v' v) (ho : o' = c ^ 2 * o) :
    LowEq (A.rankOne n m' z' v' o').mq (A.rankOne n m z v o).mq ∧ (A.rankOne n m' z' v' o').failed = (A.rankOne n m z v o).failed := by
  have hc := r.pos
  have key := forRange_rel (fun _ (s t : EllStable.RankState ℝ) => LowEq s.mq t.mq ∧ (∀ a, RowScale c a n s.mq t.mq) ∧ ArrScale c s.v t.v ∧ s.oldt = c ^ 2 * t.oldt ∧ s.failed = t.failed)
    (f := A.rankStep n z') (g := A.rankStep n z) (lo := 0) (hi := n) (s := ⟨m', v', o', false⟩) (t := ⟨m, v, o, false⟩) (Nat.zero_le n) ⟨hm, hu, hv, ho, rfl⟩
    (by
      rintro j s t _ hj ⟨h1, h2, h3, h4, h5⟩
      unfold Arith.rankStep
      have en : A.add s.oldt (A.mul (s.v j) (z' j)) = c ^ 2 * A.add t.oldt (A.mul (t.v j) (z j)) := by
        rw [h4, h3 j, hz j, r.mul2, r.sq.add]
      rw [h5]
      by_cases hf : t.failed = true
      · rw [if_pos hf, if_pos hf]; exact ⟨h1, h2, h3, h4, h5⟩
      rw [if_neg hf, if_neg hf]
      simp only [en]
      by_cases h0 : A.add t.oldt (A.mul (t.v j) (z j)) = 0
      · rw [if_pos h0, if_pos (by rw [h0, mul_zero])]; exact ⟨h1, h2, h3, h4, rfl⟩
      rw [if_neg h0, if_neg (mul_ne_zero r.sq.pos.ne' h0)]
      have eb : c * A.div (z' j) (c ^ 2 * A.add t.oldt (A.mul (t.v j) (z j))) = A.div (z j) (A.add t.oldt (A.mul (t.v j) (z j))) := by
        rw [← r.divn, hz j, ← mul_assoc, ← pow_two, r.sq.div2]
      have ed : A.div s.oldt (c ^ 2 * A.add t.oldt (A.mul (t.v j) (z j))) = A.div t.oldt (A.add t.oldt (A.mul (t.v j) (z j))) := by
        rw [h4, r.sq.div2]
      rw [ed, h1 j j le_rfl]
      have inner := forRange_rel (fun _ (s t : (ℕ → ℕ → ℝ) × (ℕ → ℝ)) => LowEq s.1 t.1 ∧ (∀ a, RowScale c a n s.1 t.1) ∧ ArrScale c s.2 t.2)
        (f := A.rankInner j (A.div (z' j) (c ^ 2 * A.add t.oldt (A.mul (t.v j) (z j))))) (g := A.rankInner j (A.div (z j) (A.add t.oldt (A.mul (t.v j) (z j)))))
        (lo := j + 1) (hi := n)
        (s := (set2 s.mq j j (A.mul (t.mq j j) (A.div t.oldt (A.add t.oldt (A.mul (t.v j) (z j))))), s.v))
        (t := (set2 t.mq j j (A.mul (t.mq j j) (A.div t.oldt (A.add t.oldt (A.mul (t.v j) (z j))))), t.v)) (by omega)
        ⟨h1.set _ _ _, fun a => (h2 a).set_low le_rfl _ _, h3⟩
        (by
          rintro k s' t' hk1 hk2 ⟨g1, g2, g3⟩
          have ev : A.sub (s'.2 k) (s'.1 j k) = c * A.sub (t'.2 k) (t'.1 j k) := by
            rw [g3 k, g2 j k (by omega) hk2, r.sub]
          unfold Arith.rankInner
          simp only [set1_self, ev]
          refine ⟨?_, fun a => (g2 a).set_low (by omega) _ _, g3.set k rfl⟩
          rw [r.mulr, ← r.mull, eb, g1 k j (by omega)]
          exact g1.set _ _ _)
      exact ⟨inner.1, inner.2.1, inner.2.2, rfl, rfl⟩)
  exact ⟨key.1, key.2.2.2.2⟩

omit r in
/-- Two `EllStable` objects that agree in everything but `_tsq` and the scratch entries above the diagonal. -/
structure StableSame {n : ℕ} (s' s : EllStable n) : Prop where
  low : LowEq s'.mq s.mq
  xc : s'.xc = s.xc
  kappa : s'.kappa = s.kappa
  helper : s'.helper = s.helper
  defer : s'.noDeferTrick = s.noDeferTrick

variable {n : ℕ}

omit r in
theorem stableFinish_same {s' s : EllStable n} (h : StableSame s' s) (δ : ℝ) : StableSame (A.stableFinish s' δ) (A.stableFinish s δ) := by
  unfold Arith.stableFinish
  simp only [h.defer, h.kappa]
  split_ifs
  · exact ⟨fun i j hij => by simp only [h.low i j hij], h.xc, rfl, h.helper, rfl⟩
  · exact ⟨h.low, h.xc, rfl, h.helper, rfl⟩

omit r in
theorem toArr1_scale (g : Vec n) : ArrScale c (toArr1 (c • g)) (toArr1 g) := by
  intro i
  unfold toArr1
  split_ifs
  · rfl
  · exact (mul_zero c).symm

theorem stableCore_scale {s' s : EllStable n} (h : StableSame s' s) (cut : Cut n) (S : Strategy)
    (hS : ∀ β t, S (CutChoice.scale c β) (c ^ 2 * t) = scaleResult c (S β t)) :
    (A.stableCore s' (cut.scale c) S).2 = (A.stableCore s cut S).2 ∧ StableSame (A.stableCore s' (cut.scale c) S).1 (A.stableCore s cut S).1 := by
  obtain ⟨g, β⟩ := cut
  obtain ⟨f1, f2, f3⟩ := fwd_scale r n h.low (toArr1_scale (c := c) g)
  have hz := invDiag_scale r n f1 f2
  have hω := omegaSum_scale r n f2 hz
  have hb := bwd_scale r n f1 hz
  simp only [Cut.scale]
  unfold Arith.stableCore
  simp only [hω, h.kappa, r.sq.mulr, hS]
  generalize A.omegaSum n (A.fwd n s.mq (toArr1 g)).2 (A.invDiag n (A.fwd n s.mq (toArr1 g)).1 (A.fwd n s.mq (toArr1 g)).2) = ω at *
  rcases S β (A.mul s.kappa ω) with e | ⟨st, _ | p⟩
  · exact ⟨rfl, f1, h.xc, rfl, h.helper, h.defer⟩
  · exact ⟨rfl, f1, h.xc, rfl, h.helper, h.defer⟩
  simp only [scaleResult, except_map_ok, Option.map, Params.scale]
  by_cases h0 : ω = 0
  · rw [if_pos h0, if_pos (by rw [h0, mul_zero])]
    exact ⟨rfl, f1, h.xc, rfl, h.helper, h.defer⟩
  rw [if_neg h0, if_neg (mul_ne_zero r.sq.pos.ne' h0)]
  have ex : (fun i : Fin n => A.sub (s'.xc i) (A.mul (A.div (c * p.rho) (c ^ 2 * ω))
        (A.bwd n (A.fwd n s'.mq (toArr1 (c • g))).1 (A.invDiag n (A.fwd n s'.mq (toArr1 (c • g))).1 (A.fwd n s'.mq (toArr1 (c • g))).2) i))) =
      fun i : Fin n => A.sub (s.xc i) (A.mul (A.div p.rho ω)
        (A.bwd n (A.fwd n s.mq (toArr1 g)).1 (A.invDiag n (A.fwd n s.mq (toArr1 g)).1 (A.fwd n s.mq (toArr1 g)).2) i)) := by
    funext i
    rw [hb i, h.xc, r.mulr, ← r.mull, ← r.divn, ← mul_assoc, ← pow_two, r.sq.div2]
  by_cases h1 : A.sub 1 p.sigma = 0
  · rw [if_pos h1, if_pos h1]
    exact ⟨rfl, f1, ex, rfl, h.helper, h.defer⟩
  rw [if_neg h1, if_neg h1]
  by_cases h2 : A.div p.sigma (A.sub 1 p.sigma) = 0
  · rw [if_pos h2, if_pos h2]
    exact ⟨rfl, f1, ex, rfl, h.helper, h.defer⟩
  rw [if_neg h2, if_neg h2]
  obtain ⟨k1, k2⟩ := rankOne_scale r n (o := A.div ω (A.div p.sigma (A.sub 1 p.sigma))) f1 f3 hz (toArr1_scale (c := c) g) (r.sq.divn ω _)
  simp only [k2]
  split_ifs
  · exact ⟨rfl, k1, ex, rfl, h.helper, h.defer⟩
  · refine ⟨rfl, stableFinish_same ?_ p.delta⟩
    exact ⟨k1, ex, rfl, h.helper, h.defer⟩

omit r in
/-- The three public methods of `EllStable` in the arithmetic `A`. -/
noncomputable def stableBy (A : Arith) (s : EllStable n) (m : Method) (cut : Cut n) : EllStable n × Except Fault CutStatus :=
  match m with
  | .bias => A.stableBiasCut s cut
  | .central => A.stableCentralCut s cut
  | .q => A.stableQ s cut

theorem stableBy_scale {s' s : EllStable n} (h : StableSame s' s) (m : Method) (cut : Cut n) :
    (A.stableBy s' m (cut.scale c)).2 = (A.stableBy s m cut).2 ∧ StableSame (A.stableBy s' m (cut.scale c)).1 (A.stableBy s m cut).1 := by
  cases m
  · simp only [Arith.stableBy, Arith.stableBiasCut, h.helper]; exact stableCore_scale r h cut _ (r.single _)
  · simp only [Arith.stableBy, Arith.stableCentralCut, h.helper]; exact stableCore_scale r h cut _ (r.central _)
  · simp only [Arith.stableBy, Arith.stableQ, h.helper]; exact stableCore_scale r h cut _ (r.singleQ _)

omit r in
/-- A sequence of calls on one `EllStable` object: the final object and the outcome of every call; after an exception the
caller goes on with the object as it was left. -/
noncomputable def stableUpdates (A : Arith) : EllStable n → List (Method × Cut n) → EllStable n × List (Except Fault CutStatus)
  | s, [] => (s, [])
  | s, (m, cut) :: rest =>
    let r := A.stableBy s m cut
    let t := stableUpdates A r.1 rest
    (t.1, r.2 :: t.2)

omit r in
theorem stableUpdates_scale (p : ℕ) : ∀ (calls : List ((Method × Cut n) × ℤ)) (s' s : EllStable n), StableSame s' s →
    ((Arith.ieee p).stableUpdates s' (calls.map fun x => (x.1.1, x.1.2.scale (2 ^ x.2)))).2 = ((Arith.ieee p).stableUpdates s (calls.map Prod.fst)).2 ∧
    StableSame ((Arith.ieee p).stableUpdates s' (calls.map fun x => (x.1.1, x.1.2.scale (2 ^ x.2)))).1 ((Arith.ieee p).stableUpdates s (calls.map Prod.fst)).1
  | [], _, _, h => ⟨rfl, h⟩
  | ((m, cut), k) :: rest, s', s, h => by
    have h1 := stableBy_scale (A := Arith.ieee p) ⟨zpow_pos two_pos k, roundBits_zpow_mul p k⟩ h m cut
    have ih := stableUpdates_scale p rest _ _ h1.2
    simp only [List.map_cons, Arith.stableUpdates]
    exact ⟨by rw [h1.1, ih.1], ih.2⟩

end Arith

/-- **C138.** With `p`-bit numbers: in any sequence of calls on an `EllStable` object, multiply each cut by a power of two of its own.
Every call has the same outcome, and at the end the centre, the scale and the factorisation (the entries on and below the diagonal)
are the same, bit for bit. -/
theorem C138_bits {n : ℕ} (p : ℕ) (s : EllStable n) (calls : List ((Method × Cut n) × ℤ)) :
    let r := (Arith.ieee p).stableUpdates s (calls.map fun x => (x.1.1, x.1.2.scale (2 ^ x.2)))
    let r' := (Arith.ieee p).stableUpdates s (calls.map Prod.fst)
    r.2 = r'.2 ∧ r.1.xc = r'.1.xc ∧ r.1.kappa = r'.1.kappa ∧ ∀ i j, j ≤ i → r.1.mq i j = r'.1.mq i j := by
  have h := Arith.stableUpdates_scale p calls s s ⟨fun _ _ _ => rfl, rfl, rfl, rfl, rfl⟩
  exact ⟨h.1, h.2.xc, h.2.kappa, h.2.low⟩

/-- Two calls with different factors, 8 and 1/2: the two lists of calls are different. -/
example : let calls : List ((Method × Cut 2) × ℤ) := [((.central, (![1, 0], .scalar 0)), 3), ((.q, (![0, 1], .scalar 0)), -1)]
    calls.map (fun x => (x.1.1, x.1.2.scale (2 ^ x.2))) ≠ calls.map Prod.fst := by
  intro calls h
  have h1 := congrArg (fun l => (l.head?.map fun x => x.2.1 0)) h
  simp [calls, Cut.scale] at h1
  norm_num at h1

end Ellalgo
