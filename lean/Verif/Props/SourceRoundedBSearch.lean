import Verif.Props.RoundedBSearch

/-!
# C117 and C118 from the text

`bsearch` and `BSearchAdaptor` run from the text of `cutting_plane.py` with numbers of `p` bits.
-/

namespace Ellalgo.Py

open Finset Matrix Spec CuttingPlane

variable {W O : Type} {own : St W → ℕ → Prop} {Q : St W → O → Prop} {vo vopt v2 : Val} {opts opts2 : Options ℝ} {ext : ℕ → String → List Val → M W Val} {fuel p n : ℕ}

theorem float_sim (hp : 2 ≤ p) (ext : ℕ → String → List Val → M W Val) (fuel : ℕ) (tol : ℝ) :
    BSNumSim (Arith.ieee p) ext (fuel + 1) (floatNum (Arith.ieee p) tol) tol Val.num (fun x v => v.toFloat (Arith.ieee p) = some x) (fun x v => v = .num x) "float" :=
  floatNum_sim _ _ fuel (by rw [ieee_two hp]; exact two_ne_zero) tol

section anyOracle

variable {omega : OracleBS O ℝ} {lo up : ℝ} (hp : 2 ≤ p) (hfl : IsFloat p lo) (hfu : IsFloat p up) (hQ : BSSim (Arith.ieee p) ext (fuel + 1) vo v2 omega opts2 Q Val.num) {st : St W} {o : O} (ho : Q st o)
include hp hfl hfu hQ ho

/-- **C117.** `bsearch(omega, (lower, upper), options)` of the text on machine numbers, for every object with a method `assess_bs`: what is returned is as in `C117_bsearch`. -/
theorem C117_text (h : lo ≤ up) :
    (∃ s u k lo' o' l, call (mach (Arith.ieee p) ext) (fuel + 2) (.glob "bsearch") [vo, .tuple [.num lo, .num up], v2] st = .ok (.tuple [.num u, .int (k : ℕ)]) s ∧ Q s o'
      ∧ BSTrace omega (floatNum (Arith.ieee p) opts2.tolerance) o lo up l o' lo' u ∧ l.length = k ∧ k ≤ opts2.maxIters ∧ (∀ t ∈ l, lo ≤ t.1 ∧ t.1 ≤ up) ∧ u = lastAnswered true up l ∧ lo' = lastAnswered false lo l ∧ lo' ≤ u
      ∧ u - lo' ≤ (up - lo) / 2 ^ k + 4 * 2⁻¹ ^ p * max |lo| |up| ∧ (k < opts2.maxIters → (1 - 2⁻¹ ^ p) * (u - lo') < 2 * opts2.tolerance))
    ∨ ∃ s f, call (mach (Arith.ieee p) ext) (fuel + 2) (.glob "bsearch") [vo, .tuple [.num lo, .num up], v2] st = .exc (excOf f) s := by
  have hh := call_bsearch (fuel := fuel) (float_sim hp ext fuel opts2.tolerance) hQ ho (l := lo) (u := up) (vl := .num lo) rfl
  rcases hr : bsearch omega (floatNum (Arith.ieee p) opts2.tolerance) o (lo, up) opts2.maxIters with ⟨o', lo', f | ⟨u, k⟩⟩ <;> rw [hr] at hh <;> simp only [BSOutcome] at hh
  · obtain ⟨s, h1, -⟩ := hh
    exact .inr ⟨s, f, h1⟩
  · obtain ⟨s, h1, h2⟩ := hh
    obtain ⟨l, h3⟩ := C117_bsearch omega hp h hfl hfu o opts2.maxIters hr
    exact .inl ⟨s, u, k, lo', o', l, h1, h2, h3⟩

/-- **C118.** From the text: with a tolerance below the resolution, `bsearch` makes all of its `max_iters` tests. -/
theorem C118_text {γs : ℝ} (h0 : 0 < lo) (h1 : lo < γs) (h2 : γs ≤ up) (htol : 2 * opts2.tolerance ≤ (1 - 2⁻¹ ^ p) * 2⁻¹ ^ p * lo)
    (hω : ∀ o γ, lo ≤ γ → γ ≤ up → ∃ o', omega o γ = (o', .ok (decide (γs ≤ γ)))) :
    ∃ s u, call (mach (Arith.ieee p) ext) (fuel + 2) (.glob "bsearch") [vo, .tuple [.num lo, .num up], v2] st = .ok (.tuple [.num u, .int (opts2.maxIters : ℕ)]) s
      ∧ γs ≤ u ∧ u - γs ≤ (up - lo) / 2 ^ opts2.maxIters + 4 * 2⁻¹ ^ p * up := by
  have hh := call_bsearch (fuel := fuel) (float_sim hp ext fuel opts2.tolerance) hQ ho (l := lo) (u := up) (vl := .num lo) rfl
  obtain ⟨o', lo', u, hr, h3, h4, h5⟩ := C118_exhausts omega hp hfl hfu h0 h1 h2 htol hω o opts2.maxIters
  rw [hr] at hh
  simp only [BSOutcome] at hh
  obtain ⟨s, h6, -⟩ := hh
  exact ⟨s, u, h6, h4, by linarith⟩

end anyOracle

/-- What `bsearch` of the text does with an adaptor, up to an exception that comes from a test below `γs`: it returns a bound `u` and the number of tests `k` with `u ≤ γs + (upper - lower) / 2 ** k` up to the resolution, and
`(1 - 2 ** -p) * (u - γs) < 2 * tolerance` unless all tests are used; and `x_best` is a point accepted for `u`, or nothing was found and `u` is `upper`. -/
def FloatBisects (p : ℕ) (F : ℝ → Set (Vec n)) (x : Vec n) (lo up γs : ℝ) (opts2 : Options ℝ) (raises : String → ℝ → Prop) (best : St W → Res W Val) (res : Res W Val) : Prop :=
  (∃ s3 u k lb y, res = .ok (.tuple [.num u, .int (k : ℕ)]) s3 ∧ k ≤ opts2.maxIters ∧ u ≤ γs + (up - lo) / 2 ^ k + 4 * 2⁻¹ ^ p * max |lo| |up| ∧ (k < opts2.maxIters → (1 - 2⁻¹ ^ p) * (u - γs) < 2 * opts2.tolerance)
    ∧ best s3 = .ok (.ref lb) s3 ∧ s3.heap lb = some (.vec n y) ∧ ((u = up ∧ y = x) ∨ y ∈ F u))
  ∨ ∃ s3 f γ, res = .exc f s3 ∧ γ < γs ∧ raises f γ

section adaptor

variable {I : O → Prop} {J : ℝ → O → Prop} {F : ℝ → Set (Vec n)} {omega : OracleFeas O (Vec n) (Cut n)} {upd : O → ℝ → O} {c : Vec n} {R r D η X γs lo up : ℝ} (hQ : ParamOracle (Arith.ieee p) ext (fuel + 7) vo own omega upd Val.num Q)
  {st : St W} {o : O} (hI : I o) (ho : Q st o) (hopt : OptionsAt (Arith.ieee p) st vopt opts) (hlt : ∀ k, vopt = .ref k → k < st.next) (h2 : OptionsAt (Arith.ieee p) st v2 opts2) (hlt2 : ∀ k, v2 = .ref k → k < st.next) {lx : ℕ}
  {x : Vec n} (hx : st.heap lx = some (.vec n x)) (hltx : lx < st.next) (hox : ¬ own st lx)
include hQ ho hopt hlt h2 hlt2 hx hltx hox

theorem bisects_text (hp2 : 2 ≤ p) (hdim : (Arith.ieee p).rnd n = n) {e : Ell n} (he : (Arith.ieee p).ellInit (.scalar (R ^ 2)) x = .ok e)
    (hB : BisectsTo p F (assessBS omega upd ((Arith.ieee p).space n) ltReal opts) o e lo up γs opts2.tolerance opts2.maxIters) :
    ∃ s1 s2, call (mach (Arith.ieee p) ext) (fuel + 3) (.glob "Ell") [.num (R ^ 2), .ref lx] st = .ok (.ref st.next) s1
      ∧ call (mach (Arith.ieee p) ext) (fuel + 1) (.glob "BSearchAdaptor") [vo, .ref st.next, vopt] s1 = .ok (.ref s1.next) s2
      ∧ FloatBisects p F x lo up γs opts2 (fun f γ => ∃ o₁ e₁ e, (assessBS omega upd ((Arith.ieee p).space n) ltReal opts (o₁, e₁) γ).2 = .error e ∧ f = excOf e)
        (getAttr (mach (Arith.ieee p) ext) (call (mach (Arith.ieee p) ext) (fuel + 2)) (.ref s1.next) "x_best")
        (call (mach (Arith.ieee p) ext) (fuel + 10) (.glob "bsearch") [.ref s1.next, .tuple [.num lo, .num up], v2] s2) := by
  have hA := literals_ieee hp2
  obtain ⟨s1, lm, h1, hrdy⟩ := ready_init hA hdim hQ.toOracleAt ho hopt hlt (ext := ext) (fuel := fuel) (.num (R ^ 2)) hx hltx hox he
  obtain ⟨s1', h1', hf1, -⟩ := ell_init hA (ext := ext) (st := st) fuel hdim (.num (R ^ 2)) hx hltx
  rw [he, h1] at h1'
  obtain rfl : s1 = s1' := by simpa using h1'
  obtain ⟨o', e', lo', res, h3, h4⟩ := hB
  obtain ⟨s2, s3, lm', lx', h5, h6, h7, -, h8, -⟩ := C98_bsearch hA hQ (float_sim hp2 ext (fuel + 8) opts2.tolerance) hrdy (h2.mono fun k _ hk _ => hf1.same k (hlt2 k hk) not_false)
    (fun k hk => (hlt2 k hk).trans_le hf1.next) (a := lo) (b := up) (va := .num lo) rfl
  rw [h3] at h6 h7
  refine ⟨s1, s2, h1, h5, ?_⟩
  rcases h4 with ⟨u, k, rfl, h9, h10, h11, h12⟩ | ⟨f, γ, o₁, e₁, rfl, h9, -, h10⟩
  · refine .inl ⟨s3, u, k, lx', _, h6, h9, h10, h11, h8, h7.xc, ?_⟩
    rcases h12 with ⟨h12, h13⟩ | h12
    · exact .inl ⟨h12, by dsimp only; rw [h13, (rounded_setXc _ _ he x).1]⟩
    · exact .inr h12
  · exact .inr ⟨s3, _, γ, h6, h9, o₁, e₁, f, by rw [h10], rfl⟩

variable (hω : ParamFamily I J F omega upd) (hn : 2 ≤ n) (hR : 0 < R) (hr : 0 < r) (hc : nrm c ≤ D) (hη : 0 ≤ η) (htol : 8 * opts.tolerance ≤ r ^ 2 * η) (hmax : floatIters n R r < opts.maxIters)
  (hsub : ball c r ⊆ ball x R) (hd : ∀ γ ≤ up, ∀ y ∈ F γ, ball c r ⊆ ball y R) (hlo : lo ≤ γs) (hlu : lo ≤ up) (hfl : IsFloat p lo) (hfu : IsFloat p up)
include hI hω hn hR hr hc hη htol hmax hsub hd hlo hlu hfl hfu

/-- **C117.** From the text alone, with numbers of `p` bits: `space = Ell(R ** 2, x)`, `adaptor = BSearchAdaptor(omega, space, options)` and `bsearch(adaptor, (lower, upper), options2)`, for an oracle whose single cuts keep a ball of
radius `r` for every parameter from `γs` on, if this ball is within `R` of `x` and of every point that the oracle accepts. -/
theorem C117_accuracy_text (hp : 24000 * ((n : ℝ) + 1) ^ 4 * (floatIters n R r + 1) * ((floatAxes n R r + D) / r) ^ 4 ≤ 2 ^ p) (hin : ∀ γ, γs ≤ γ → γ ≤ up → InnerOracle (J γ) (F γ) c r η X omega) (hX : D + floatAxes n R r ≤ X) :
    ∃ s1 s2, call (mach (Arith.ieee p) ext) (fuel + 3) (.glob "Ell") [.num (R ^ 2), .ref lx] st = .ok (.ref st.next) s1
      ∧ call (mach (Arith.ieee p) ext) (fuel + 1) (.glob "BSearchAdaptor") [vo, .ref st.next, vopt] s1 = .ok (.ref s1.next) s2
      ∧ FloatBisects p F x lo up γs opts2 (fun f γ => ∃ o₁ e₁ e, (assessBS omega upd ((Arith.ieee p).space n) ltReal opts (o₁, e₁) γ).2 = .error e ∧ f = excOf e)
        (getAttr (mach (Arith.ieee p) ext) (call (mach (Arith.ieee p) ext) (fuel + 2)) (.ref s1.next) "x_best")
        (call (mach (Arith.ieee p) ext) (fuel + 10) (.glob "bsearch") [.ref s1.next, .tuple [.num lo, .num up], v2] s2) := by
  obtain ⟨-, hb, hp2⟩ := bits_large hn hr (radius_le (by omega) hR hsub) ((nrm_nonneg c).trans hc) hp
  have hn0 : (0 : ℝ) ≤ n := Nat.cast_nonneg n
  have hup : (2⁻¹ : ℝ) ^ p * 2 ^ p = 1 := by rw [← mul_pow]; norm_num
  have hu0 : (0 : ℝ) < 2⁻¹ ^ p := by positivity
  obtain ⟨h, hh, -⟩ := Arith.core_facts (n := n) (Arith.ieee_accurate p n) hu0.le (by nlinarith) hn
  obtain ⟨e, he⟩ : ∃ e, (Arith.ieee p).ellInit (.scalar (R ^ 2)) x = .ok e := ⟨_, by unfold Arith.ellInit; rw [hh]; rfl⟩
  exact bisects_text hQ ho hopt hlt h2 hlt2 hx hltx hox hp2 (dimension_ieee (by linarith)) he (C117_accuracy hn hR hr hc hp hη hω hin hX htol hmax o hI he hsub hd hlo hlu hfl hfu _)

/-- **C117.** The same with pairs of parallel cuts. -/
theorem C117_accuracy_pairs_text (hp : 200000 * ((n : ℝ) + 1) ^ 4 * (floatIters n R r + 1) * ((pairAxes n R r + D) / r) ^ 7 ≤ 2 ^ p) (hin : ∀ γ, γs ≤ γ → γ ≤ up → InnerPairOracle (J γ) (F γ) c r η X omega)
    (hX : D + pairAxes n R r ≤ X) :
    ∃ s1 s2, call (mach (Arith.ieee p) ext) (fuel + 3) (.glob "Ell") [.num (R ^ 2), .ref lx] st = .ok (.ref st.next) s1
      ∧ call (mach (Arith.ieee p) ext) (fuel + 1) (.glob "BSearchAdaptor") [vo, .ref st.next, vopt] s1 = .ok (.ref s1.next) s2
      ∧ FloatBisects p F x lo up γs opts2 (fun f γ => ∃ o₁ e₁ e, (assessBS omega upd ((Arith.ieee p).space n) ltReal opts (o₁, e₁) γ).2 = .error e ∧ f = excOf e)
        (getAttr (mach (Arith.ieee p) ext) (call (mach (Arith.ieee p) ext) (fuel + 2)) (.ref s1.next) "x_best")
        (call (mach (Arith.ieee p) ext) (fuel + 10) (.glob "bsearch") [.ref s1.next, .tuple [.num lo, .num up], v2] s2) := by
  have hb := pair_bits_large hn hr (radius_le (by omega) hR hsub) ((nrm_nonneg c).trans hc) hp
  have hn0 : (0 : ℝ) ≤ n := Nat.cast_nonneg n
  obtain ⟨e, he⟩ := ieee_init_ok hn hb R x
  exact bisects_text hQ ho hopt hlt h2 hlt2 hx hltx hox (two_le_bits hb) (dimension_ieee (by linarith)) he (C117_accuracy_pairs hn hR hr hc hp hη hω hin hX htol hmax o hI he hsub hd hlo hlu hfl hfu _)

end adaptor

/-! ### Runs in doubles -/

/-- An object of the user whose `assess_bs(gamma)` answers `3/2 <= gamma`. -/
noncomputable def thresholdExt : ℕ → String → List Val → M Unit Val := fun _ m args =>
  match m, args with
  | "assess_bs", [.num g] => fun st => .ok (.bool (by classical exact decide (3 / 2 ≤ g))) st
  | _, _ => M.stuck

open Classical in
theorem threshold_sim (p fuel : ℕ) :
    BSSim (Arith.ieee p) thresholdExt (fuel + 1) (.ref 0) (.ref 2) (fun _ γ => ((), .ok (decide (3 / 2 ≤ γ)))) ⟨2000, (Arith.ieee p).rnd (1 / 10 ^ 20)⟩ (fun st (_ : Unit) => st = exampleHeap) Val.num where
  options := by
    rintro _ _ rfl
    exact ⟨2, Env.empty, rfl, rfl, .inr ⟨rfl, rfl⟩, .inr ⟨rfl, by simp [literal]⟩⟩
  has := by
    rintro _ _ rfl
    exact user_has (o := ()) ⟨by decide, rfl, rfl⟩ _
  assess := by
    rintro _ _ g rfl
    refine ⟨.bool (decide (3 / 2 ≤ g)), exampleHeap, ?_, rfl, fun st => rfl⟩
    rw [call_user (by rfl)]
    simp only [mach, thresholdExt]

/-- The tolerance of the default options, rounded to doubles. -/
theorem default_tolerance : 0 ≤ (Arith.ieee 53).rnd (1 / 10 ^ 20) ∧ (Arith.ieee 53).rnd (1 / 10 ^ 20) ≤ 2 / 10 ^ 20 := by
  have := abs_le.mp ((Arith.ieee_accurate 53 2).rnd (1 / 10 ^ 20))
  rw [abs_of_pos (by positivity)] at this
  norm_num at this ⊢
  constructor <;> linarith [this.1, this.2]

theorem small_floats : IsFloat 53 0 ∧ IsFloat 53 1 ∧ IsFloat 53 2 := ⟨⟨0, 0, by simp, by simp⟩, ⟨1, 0, by simp, by norm_num⟩, ⟨2, 0, by simp, by norm_num⟩⟩

/-- The hypotheses of `C117_text` and `C118_text`, and what follows: in doubles with the default options, `bsearch(omega, (1.0, 2.0))` makes all of its 2000 tests. -/
example : ∃ s u, call (mach (Arith.ieee 53) thresholdExt) 2 (.glob "bsearch") [.ref 0, .tuple [.num 1, .num 2], .ref 2] exampleHeap = .ok (.tuple [.num u, .int (2000 : ℕ)]) s ∧ 3 / 2 ≤ u ∧ u - 3 / 2 ≤ 1 / 10 ^ 14 := by
  obtain ⟨s, u, h1, h2, h3⟩ := C118_text (p := 53) (fuel := 0) (by norm_num) small_floats.2.1 small_floats.2.2 (threshold_sim 53 0) (st := exampleHeap) (o := ()) rfl (γs := 3 / 2) one_pos (by norm_num) (by norm_num)
    (by have := default_tolerance.2; norm_num at this ⊢; linarith) (fun o γ _ _ => ⟨(), by congr⟩)
  refine ⟨s, u, h1, h2, h3.trans ?_⟩
  have h4 : (2 - 1 : ℝ) / 2 ^ 2000 ≤ (2 - 1) / 2 ^ 53 := div_le_div_of_nonneg_left (by norm_num) (by positivity) (pow_le_pow_right₀ one_le_two (by norm_num))
  refine (add_le_add_left h4 _).trans ?_
  norm_num

/-- The hypothesis of `C117_tests` in doubles with the bounds 1 and 2 and the tolerance 1e-12: at most 40 tests. -/
example : (1 + 2⁻¹ ^ 53 : ℝ) * ((2 - 1) / 2 ^ 40 + 4 * 2⁻¹ ^ 53 * max |1| |2|) < 2 * (1 / 10 ^ 12) := by norm_num

/-- The points of the disc of radius 1/2 around (1/2, 0) with first coordinate at most `γ`. -/
noncomputable def stripOracle : OracleFeas ℝ (Vec 2) (Cut 2) := by
  classical
  exact fun γ x => (γ, if x ∈ ball (![1 / 2, 0] : Vec 2) (1 / 2) ∧ γ < x 0 then .ok (some (![1, 0], .scalar (x 0 - γ))) else (ballOracle ![1 / 2, 0] (1 / 2) () x).2)

/-- What it accepts. -/
def stripSet (γ : ℝ) : Set (Vec 2) := ball (![1 / 2, 0] : Vec 2) (1 / 2) ∩ {x | x 0 ≤ γ}

theorem ball_first {x : Vec 2} (h : x ∈ ball (![1 / 2, 0] : Vec 2) (1 / 2)) : x 0 ≤ 1 := by
  simp [ball, dotProduct, Fin.sum_univ_two] at h
  nlinarith [sq_nonneg (x 1), sq_nonneg (x 0 - 1)]

theorem strip_family : ParamFamily (fun _ => True) (fun γ o => o = γ) stripSet stripOracle (fun _ γ => γ) where
  upd _ _ _ := rfl
  back _ _ _ := trivial
  inv _ _ _ h := h
  accept := by
    rintro _ γ x o' rfl h
    unfold stripOracle at h
    rw [Prod.mk.injEq] at h
    obtain ⟨-, h⟩ := h
    split_ifs at h with h1
    · simp at h
    have h2 := (ballOracle_regular (![1 / 2, 0] : Vec 2) (r := 1 / 2) (by norm_num)).accept () x () trivial (by rw [← h])
    exact ⟨h2, not_lt.mp fun h3 => h1 ⟨h2, h3⟩⟩

theorem strip_inner {γ : ℝ} (hγ : 1 ≤ γ) (X : ℝ) : InnerOracle (fun o => o = γ) (stripSet γ) (![1 / 2, 0] : Vec 2) (1 / 2) 1 X stripOracle := by
  have hB := RegularOracle.inner (ballOracle_regular (![1 / 2, 0] : Vec 2) (r := 1 / 2) (by norm_num)) (fun o x o' cut _ h1 => by
    unfold ballOracle at h1
    split_ifs at h1
    · simp at h1
    · simp only [Prod.mk.injEq, Except.ok.injEq, Option.some.injEq, true_and] at h1
      exact ⟨0, by rw [← h1]⟩) X subset_rfl
  have key : ∀ x : Vec 2, stripOracle γ x = (γ, (ballOracle ![1 / 2, 0] (1 / 2) () x).2) := by
    intro x
    unfold stripOracle
    rw [if_neg fun h => absurd (ball_first h.1) (not_le.mpr (hγ.trans_lt h.2))]
  refine ⟨fun o x h => h, ?_, ?_, ?_⟩
  · rintro _ x o' f rfl h
    rw [key, Prod.mk.injEq] at h
    exact hB.total () x () f trivial (by rw [← h.2])
  · rintro _ x o' rfl hX h
    rw [key, Prod.mk.injEq] at h
    have := hB.accept () x () trivial hX (by rw [← h.2])
    exact ⟨this, (ball_first this).trans hγ⟩
  · rintro _ x o' cut rfl hX h
    rw [key, Prod.mk.injEq] at h
    exact hB.cut () x () cut trivial hX (by rw [← h.2])

/-- A heap with an oracle of the user at 0, an array at 1, default options at 2. -/
def stripHeap : St ℝ := ⟨fun k => if k = 0 then some .user else if k = 1 then some (.vec 2 ![0, 0]) else if k = 2 then some (.inst "Options" Env.empty) else none, 3, 0⟩

/-- The hypotheses of `C117_accuracy` and `C117_accuracy_text` in doubles with the default options, and what follows: `bsearch(BSearchAdaptor(omega, Ell(1, x)), (0.0, 2.0))` for the least first coordinate. -/
example : ∃ s1 s2, call (mach (Arith.ieee 53) (bsExt stripOracle)) 3 (.glob "Ell") [.num (1 ^ 2), .ref 1] stripHeap = .ok (.ref 3) s1
    ∧ call (mach (Arith.ieee 53) (bsExt stripOracle)) 1 (.glob "BSearchAdaptor") [.ref 0, .ref 3, .ref 2] s1 = .ok (.ref s1.next) s2
    ∧ FloatBisects 53 stripSet ![0, 0] 0 2 1 ⟨2000, (Arith.ieee 53).rnd (1 / 10 ^ 20)⟩ (fun f γ => ∃ o₁ e₁ e, (assessBS stripOracle (fun _ γ => γ) ((Arith.ieee 53).space 2) ltReal ⟨2000, (Arith.ieee 53).rnd (1 / 10 ^ 20)⟩ (o₁, e₁) γ).2 = .error e ∧ f = excOf e)
        (getAttr (mach (Arith.ieee 53) (bsExt stripOracle)) (call (mach (Arith.ieee 53) (bsExt stripOracle)) 2) (.ref s1.next) "x_best")
        (call (mach (Arith.ieee 53) (bsExt stripOracle)) 10 (.glob "bsearch") [.ref s1.next, .tuple [.num 0, .num 2], .ref 2] s2) := by
  have hopt : OptionsAt (Arith.ieee 53) stripHeap (.ref 2) ⟨2000, (Arith.ieee 53).rnd (1 / 10 ^ 20)⟩ := ⟨2, Env.empty, rfl, rfl, .inr ⟨rfl, rfl⟩, .inr ⟨rfl, by simp [literal]⟩⟩
  exact C117_accuracy_text (fuel := 0) (vo := .ref 0) (own := fun _ => (· = 0)) (Q := UserAt 0) (I := fun _ => True) (J := fun γ o => o = γ) (η := 1) (user_param fun _ => rfl) (st := stripHeap) (o := 0) trivial ⟨Nat.succ_pos 2, rfl, rfl⟩
    hopt (by rintro k ⟨⟩; exact (by decide : 2 < 3)) hopt (by rintro k ⟨⟩; exact (by decide : 2 < 3)) (lx := 1) rfl (show 1 < 3 by decide) (by decide) strip_family le_rfl one_pos (by norm_num : (0 : ℝ) < 1 / 2) half_disc.2 zero_le_one
    (by have := default_tolerance.2; norm_num at this ⊢; linarith) (double_bits (D := 0) le_rfl (by norm_num)).1 half_disc.1
    (fun γ _ y hy z hz => by
      have h1 := hy.1
      simp [ball, dotProduct, Fin.sum_univ_two] at h1 hz ⊢
      nlinarith [sq_nonneg (y 1 + z 1), sq_nonneg (y 0 - 1 / 2 + (z 0 - 1 / 2))])
    zero_le_one zero_le_two small_floats.1 small_floats.2.2 (double_bits (by norm_num) le_rfl).2 (fun γ h _ => strip_inner h _) le_rfl

/-- Squares of half the side 1/4 (`γ < 1`) and 1/2 (`γ ≥ 1`) around the origin; the oracle answers with pairs of parallel cuts. -/
noncomputable def boxesOracle : OracleFeas ℝ (Vec 2) (Cut 2) := fun γ x => (γ, (boxOracle ![0, 0] (stepRadius γ) () x).2)

theorem boxes_family : ParamFamily (fun _ => True) (fun γ o => o = γ) (fun γ => {x : Vec 2 | ∀ i, |x i - (![0, 0] : Vec 2) i| ≤ stepRadius γ}) boxesOracle (fun _ γ => γ) where
  upd _ _ _ := rfl
  back _ _ _ := trivial
  inv _ _ _ h := h
  accept := by
    rintro _ γ x o' rfl h
    unfold boxesOracle at h
    rw [Prod.mk.injEq] at h
    exact (boxOracle_inner (c := ![0, 0]) (stepRadius_pos γ) (Real.sqrt (x ⬝ᵥ x))).accept () x () trivial le_rfl (by rw [← h.2])

theorem boxes_inner {γ : ℝ} (hγ : 1 ≤ γ) (X : ℝ) : InnerPairOracle (fun o => o = γ) {x : Vec 2 | ∀ i, |x i - (![0, 0] : Vec 2) i| ≤ stepRadius γ} (![0, 0] : Vec 2) (1 / 2) 1 X boxesOracle := by
  have hr : stepRadius γ = 1 / 2 := by unfold stepRadius; rw [if_neg (not_lt.mpr hγ)]
  have hB := boxOracle_inner (c := ![0, 0]) (r := 1 / 2) (by norm_num) X
  rw [hr]
  refine ⟨fun o x h => h, ?_, ?_, ?_⟩ <;> unfold boxesOracle
  · rintro _ x o' f rfl h
    rw [hr, Prod.mk.injEq] at h
    exact hB.total () x () f trivial (by rw [← h.2])
  · rintro _ x o' rfl hX h
    rw [hr, Prod.mk.injEq] at h
    exact hB.accept () x () trivial hX (by rw [← h.2])
  · rintro _ x o' cut rfl hX h
    rw [hr, Prod.mk.injEq] at h
    exact hB.cut () x () cut trivial hX (by rw [← h.2])

/-- The hypotheses of `C117_accuracy_pairs` and `C117_accuracy_pairs_text`, with enough bits and enough tests. -/
example : ∃ (p N : ℕ) (s1 s2 : St ℝ), FloatBisects p (fun γ => {x : Vec 2 | ∀ i, |x i - (![0, 0] : Vec 2) i| ≤ stepRadius γ}) 0 0 2 1 ⟨2000, (Arith.ieee p).rnd (1 / 10 ^ 20)⟩
      (fun f γ => ∃ o₁ e₁ e, (assessBS boxesOracle (fun _ γ => γ) ((Arith.ieee p).space 2) ltReal ⟨N, 0⟩ (o₁, e₁) γ).2 = .error e ∧ f = excOf e)
        (getAttr (mach (Arith.ieee p) (bsExt boxesOracle)) (call (mach (Arith.ieee p) (bsExt boxesOracle)) 2) (.ref s1.next) "x_best")
        (call (mach (Arith.ieee p) (bsExt boxesOracle)) 10 (.glob "bsearch") [.ref s1.next, .tuple [.num 0, .num 2], .ref 3] s2) := by
  obtain ⟨N, hN⟩ := exists_nat_gt (floatIters 2 2 (1 / 2))
  obtain ⟨p, hp⟩ := pow_unbounded_of_one_lt (200000 * (((2 : ℕ) : ℝ) + 1) ^ 4 * (floatIters 2 2 (1 / 2) + 1) * ((pairAxes 2 2 (1 / 2) + 0) / (1 / 2)) ^ 7 + 4) one_lt_two
  have hp2 : (2 : ℝ) < 2 ^ p := by
    have : 0 ≤ 200000 * (((2 : ℕ) : ℝ) + 1) ^ 4 * (floatIters 2 2 (1 / 2) + 1) * ((pairAxes 2 2 (1 / 2) + 0) / (1 / 2)) ^ 7 := by
      have : 0 ≤ floatIters 2 2 (1 / 2) := by unfold floatIters; positivity
      have : 0 ≤ pairAxes 2 2 (1 / 2) := by unfold pairAxes; positivity
      positivity
    linarith
  have hopt : OptionsAt (Arith.ieee p) (bsHeap N) (.ref 2) ⟨N, 0⟩ := ⟨2, _, rfl, rfl, .inl rfl, .inl ⟨_, rfl, by simp [Val.toReal]⟩⟩
  have hopt2 : OptionsAt (Arith.ieee p) (bsHeap N) (.ref 3) ⟨2000, (Arith.ieee p).rnd (1 / 10 ^ 20)⟩ := ⟨3, Env.empty, rfl, rfl, .inr ⟨rfl, rfl⟩, .inr ⟨rfl, by simp [literal]⟩⟩
  have hr : ∀ γ, stepRadius γ ≤ 1 / 2 := fun γ => by unfold stepRadius; split_ifs <;> norm_num
  obtain ⟨s1, s2, -, -, h⟩ := C117_accuracy_pairs_text (p := p) (fuel := 0) (vo := .ref 0) (own := fun _ => (· = 0)) (Q := UserAt 0) (I := fun _ => True) (J := fun γ o => o = γ) (η := 1) (c := ![0, 0]) (R := 2) (r := 1 / 2) (D := 0) (γs := 1) (lo := 0)
    (up := 2) (ext := bsExt boxesOracle) (user_param fun _ => rfl) (st := bsHeap N) (o := 0) trivial ⟨Nat.succ_pos 3, rfl, rfl⟩
    hopt (by rintro k ⟨⟩; exact (by decide : 2 < 4)) hopt2 (by rintro k ⟨⟩; exact (by decide : 3 < 4)) (lx := 1) rfl (show 1 < 4 by decide) (by decide) boxes_family le_rfl two_pos (by norm_num) (by simp [nrm]) zero_le_one
    (by norm_num) hN (fun z hz => by simp [ball, dotProduct, Fin.sum_univ_two] at hz ⊢; linarith)
    (fun γ _ y hy z hz => by
      have h0 := (abs_le.mp ((hy 0).trans (hr γ)))
      have h1 := (abs_le.mp ((hy 1).trans (hr γ)))
      simp [ball, dotProduct, Fin.sum_univ_two] at h0 h1 hz ⊢
      nlinarith [sq_nonneg (y 1 + z 1), sq_nonneg (y 0 + z 0)])
    zero_le_one zero_le_two ⟨0, 0, by simp, by simp⟩ ⟨2, 0, by simp, by simpa using hp2⟩ (by linarith) (fun γ h _ => boxes_inner h _) le_rfl
  exact ⟨p, N, s1, s2, h⟩

end Ellalgo.Py
