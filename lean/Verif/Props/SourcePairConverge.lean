import Verif.Props.RoundedLowpassDesign

/-!
# C116: pairs of parallel cuts in floating point, from the text

C113 says that the loops converge on machine numbers when an oracle mixes single cuts and pairs of parallel cuts. Here the loops, `Ell` and `EllCalc` are run from the text of their files.
-/

namespace Ellalgo

open Finset Matrix Spec CuttingPlane

namespace Py

variable {W O : Type} {own : St W → ℕ → Prop} {Q : St W → O → Prop} {vo vopt : Val} {opts : Options ℝ} {ext : ℕ → String → List Val → M W Val} {fuel p : ℕ}

/-- The precision for pairs is sufficient for the constants of `EllCalc`. -/
theorem pair_bits_large {n : ℕ} (hn : 2 ≤ n) {R r D : ℝ} (hr : 0 < r) (hrR : r ≤ R) (hD : 0 ≤ D)
    (hp : 200000 * ((n : ℝ) + 1) ^ 4 * (floatIters n R r + 1) * ((pairAxes n R r + D) / r) ^ 7 ≤ 2 ^ p) : 200000 * ((n : ℝ) + 1) ≤ 2 ^ p := by
  have hn0 : (0 : ℝ) ≤ n := Nat.cast_nonneg n
  have hT0 := floatIters_nonneg (n := n) hr hrR
  have hR := le_pairAxes hn hr hrR
  have h1 : 1 ≤ ((pairAxes n R r + D) / r) ^ 7 := one_le_pow₀ (by rw [le_div_iff₀ hr]; linarith)
  have h2 : (n : ℝ) + 1 ≤ ((n : ℝ) + 1) ^ 4 := le_self_pow₀ (by linarith) (by norm_num)
  refine le_trans ?_ hp
  calc 200000 * ((n : ℝ) + 1) = 200000 * ((n : ℝ) + 1) * 1 * 1 := by ring
    _ ≤ 200000 * ((n : ℝ) + 1) ^ 4 * (floatIters n R r + 1) * ((pairAxes n R r + D) / r) ^ 7 := by
      gcongr
      linarith

/-- **C116.** From the text alone, on machine numbers with `p` bits: `space = Ell(R ** 2, x)` and `cutting_plane_feas(omega, space, options)` return an array with a point that the oracle accepts, within `(20/9) n (n + 1) ln(2R/r)`
iterations, for every oracle whose cuts, single ones or pairs of parallel ones in any order, keep a ball of radius `r`. -/
theorem C116_feas {n : ℕ} {omega : OracleFeas O (Vec n) (Cut n)} {I : O → Prop} {F : Set (Vec n)} {R r D η X : ℝ} (hn : 2 ≤ n) (hR : 0 < R) (hr : 0 < r) {c : Vec n} (hc : nrm c ≤ D)
    (hp : 200000 * ((n : ℝ) + 1) ^ 4 * (floatIters n R r + 1) * ((pairAxes n R r + D) / r) ^ 7 ≤ 2 ^ p) (hη : 0 ≤ η) (hω : InnerPairOracle I F c r η X omega) (hX : D + pairAxes n R r ≤ X)
    (hQ : FeasOracle (Arith.ieee p) ext (fuel + 7) vo own omega Q) {st : St W} {o : O} (hI : I o) (ho : Q st o) (hopt : OptionsAt (Arith.ieee p) st vopt opts) (hlt : ∀ k, vopt = .ref k → k < st.next) {lx : ℕ} {x : Vec n}
    (hx : st.heap lx = some (.vec n x)) (hltx : lx < st.next) (hox : ¬ own st lx) (hsub : ball c r ⊆ ball x R) (htol : 8 * opts.tolerance ≤ r ^ 2 * η) (hmax : floatIters n R r < opts.maxIters) :
    ∃ s1 s2 k y, call (mach (Arith.ieee p) ext) (fuel + 3) (.glob "Ell") [.num (R ^ 2), .ref lx] st = .ok (.ref st.next) s1
      ∧ call (mach (Arith.ieee p) ext) (fuel + 8) (.glob "cutting_plane_feas") [vo, .ref st.next, vopt] s1 = .ok (.tuple [.ref lx, .int (k : ℕ)]) s2
      ∧ s2.heap lx = some (.vec n y) ∧ y ∈ F ∧ (k : ℝ) ≤ floatIters n R r := by
  have hb := pair_bits_large hn hr (radius_le (by omega) hR hsub) ((nrm_nonneg c).trans hc) hp
  have hA := literals_ieee (two_le_bits hb)
  have hn0 : (0 : ℝ) ≤ n := Nat.cast_nonneg n
  obtain ⟨e, he⟩ := ieee_init_ok hn hb R x
  obtain ⟨s1, lm, h1, h2⟩ := ready_init hA (dimension_ieee (by linarith)) hQ.toOracleAt ho hopt hlt (ext := ext) (fuel := fuel) (.num (R ^ 2)) hx hltx hox he
  obtain ⟨o', e', y, k, h3, h4, h5⟩ := C113_feas_ieee hn hR hr hc hp hη hω hX hI hsub he opts htol hmax
  obtain ⟨s2, h6, -, h7⟩ := C98_feas hA hQ h2
  rw [h3] at h6 h7
  exact ⟨s1, s2, k, y, h1, h6, h7 y k rfl, h4, h5⟩

/-- **C116.** The same for `cutting_plane_optim(omega, space, gamma, options)`: unless it raises, the value returned is at least as good as the target. -/
theorem C116_optim {G : Type} [LinearOrder G] {n : ℕ} {omega : OracleOptim O (Vec n) (Cut n) G} {I : O → Prop} {γs : G} {R r D η X : ℝ} (hn : 2 ≤ n) (hR : 0 < R) (hr : 0 < r) {c : Vec n} (hc : nrm c ≤ D)
    (hp : 200000 * ((n : ℝ) + 1) ^ 4 * (floatIters n R r + 1) * ((pairAxes n R r + D) / r) ^ 7 ≤ 2 ^ p) (hη : 0 ≤ η) (hω : InnerPairLevelOracle I γs c r η X omega) (hX : D + pairAxes n R r ≤ X) {isG : G → Val → Prop}
    (hQ : OptimOracle (Arith.ieee p) ext (fuel + 7) vo own omega isG Q) {st : St W} {o : O} (hI : I o) (ho : Q st o) (hopt : OptionsAt (Arith.ieee p) st vopt opts) (hlt : ∀ k, vopt = .ref k → k < st.next) {lx : ℕ} {x : Vec n}
    (hx : st.heap lx = some (.vec n x)) (hltx : lx < st.next) (hox : ¬ own st lx) (hsub : ball c r ⊆ ball x R) {g0 : G} {vg : Val} (hg : isG g0 vg) (hg0 : g0 < γs) (htol : 8 * opts.tolerance ≤ r ^ 2 * η)
    (hmax : floatIters n R r < opts.maxIters) :
    ∃ s1 s2, call (mach (Arith.ieee p) ext) (fuel + 3) (.glob "Ell") [.num (R ^ 2), .ref lx] st = .ok (.ref st.next) s1
      ∧ ((∃ vb vg' g k, call (mach (Arith.ieee p) ext) (fuel + 8) (.glob "cutting_plane_optim") [vo, .ref st.next, vg, vopt] s1 = .ok (.tuple [vb, vg', .int (k : ℕ)]) s2 ∧ isG g vg' ∧ γs ≤ g)
        ∨ ∃ fault, call (mach (Arith.ieee p) ext) (fuel + 8) (.glob "cutting_plane_optim") [vo, .ref st.next, vg, vopt] s1 = .exc (excOf fault) s2) := by
  have hb := pair_bits_large hn hr (radius_le (by omega) hR hsub) ((nrm_nonneg c).trans hc) hp
  have hA := literals_ieee (two_le_bits hb)
  have hn0 : (0 : ℝ) ≤ n := Nat.cast_nonneg n
  obtain ⟨e, he⟩ := ieee_init_ok hn hb R x
  obtain ⟨s1, lm, h1, h2⟩ := ready_init hA (dimension_ieee (by linarith)) hQ.toOracleAt ho hopt hlt (ext := ext) (fuel := fuel) (.num (R ^ 2)) hx hltx hox he
  obtain ⟨s2, vb, vg', h3, -, h4⟩ := C98_optim hA hQ h2 hg
  refine ⟨s1, s2, h1, ?_⟩
  rcases hres : optim omega ((Arith.ieee p).space n) ltReal o e g0 opts with ⟨o', e', f | ⟨xb, g, k⟩⟩ <;> rw [hres] at h3 h4
  · exact .inr ⟨f, h3⟩
  · exact .inl ⟨vb, vg', g, k, h3, (h4 _ _ _ rfl).1, C113_optim_ieee hn hR hr hc hp hη hω hX hI hsub he hg0 opts htol hmax hres⟩

/-! ### The hypotheses can be met -/

open Classical in
/-- Maximise the first coordinate over the box of `boxOracle`: a single cut where the coordinate is not above the target, a pair of cuts where the point is outside of the box, and else the value. -/
noncomputable def boxOptim (c : Vec 2) (r : ℝ) : OracleOptim Unit (Vec 2) (Cut 2) ℝ := fun o x γ =>
  if x 0 ≤ γ then (o, .ok ((![-1, 0], .scalar (γ - x 0)), none))
  else match boxOracle c r o x with
    | (o', .ok (some cut)) => (o', .ok (cut, none))
    | (o', _) => (o', .ok ((![-1, 0], .scalar 0), some (x 0)))

theorem boxOptim_inner {c : Vec 2} {r : ℝ} (hr : 0 < r) (X : ℝ) : InnerPairLevelOracle (fun _ => True) (c 0 - r) c r 1 X (boxOptim c r) := by
  have hB := boxOracle_inner (c := c) hr X
  refine ⟨fun _ _ _ _ => trivial, fun o x γ o' f _ h => ?_, fun o x γ o' cut _ hX hγ h => ?_, fun o x γ o' cut γ1 _ h => ?_, fun o x γ o' cut γ1 _ hX hγ h => ?_⟩ <;> unfold boxOptim at h <;> split_ifs at h with h1
  · simp at h
  · split at h <;> simp at h
  · simp only [Prod.mk.injEq, Except.ok.injEq, and_true] at h
    rw [← h.2]
    refine ⟨γ - x 0, .inl rfl, by linarith, fun y hy => ?_, fun h0 => by simpa using congrFun h0 0, by simp [dotProduct, Fin.sum_univ_two]⟩
    have := (abs_le.mp (abs_coord_le hr.le hy 0)).1
    simp [dotProduct, Fin.sum_univ_two]
    linarith
  · split at h
    · rename_i o1 cut1 h2
      simp only [Prod.mk.injEq, Except.ok.injEq, and_true] at h
      rw [← h.2]
      exact hB.cut o x o1 cut1 trivial hX h2
    · simp at h
  · simp at h
  · split at h
    · simp at h
    · simp only [Prod.mk.injEq, Except.ok.injEq, Option.some.injEq] at h
      linarith [h.2.2]
  · simp at h
  · split at h
    · simp at h
    · rename_i o1 a h2 h3
      simp only [Prod.mk.injEq, Except.ok.injEq, Option.some.injEq] at h
      rcases h4 : boxOracle c r o x with ⟨o2, f | _ | cut2⟩
      · exact absurd h4 (hB.total o x o2 f trivial)
      · have := (abs_le.mp (hB.accept o x o2 trivial hX h4 0)).1
        linarith [h.2.2]
      · exact (h2 cut2 (congrArg Prod.snd (h3.symm.trans h4))).elim

/-- The user's oracles for a box. -/
noncomputable def boxExt (c : Vec 2) (r : ℝ) : ℕ → String → List Val → M Unit Val :=
  userExt (G := ℝ) .num (fun v => v.toReal.getD 0) (boxOracle c r) (fun o _ => o) (boxOptim c r) (fun o x _ _ => (o, .ok ⟨(x, .scalar 0), x, none, false⟩))

/-- In doubles, with a user's oracles: the hypotheses of `C116_feas` (a square with half-width 4/5) and of `C116_optim` (the first coordinate on this square; target -3/5), and what follows. -/
example : (∃ (s1 s2 : St Unit) (k : ℕ) (y : Vec 2), call (mach (Arith.ieee 53) (boxExt ![1 / 5, 0] (4 / 5))) 8 (.glob "cutting_plane_feas") [.ref 0, .ref 3, .ref 2] s1 = .ok (.tuple [.ref 1, .int k]) s2
      ∧ s2.heap 1 = some (.vec 2 y) ∧ |y 0 - 1 / 5| ≤ 4 / 5)
    ∧ ∃ s1 s2 : St Unit, (∃ vb g k, call (mach (Arith.ieee 53) (boxExt ![1 / 5, 0] (4 / 5))) 8 (.glob "cutting_plane_optim") [.ref 0, .ref 3, .num (-10), .ref 2] s1 = .ok (.tuple [vb, .num g, .int (k : ℕ)]) s2 ∧ -(3 / 5) ≤ g)
      ∨ ∃ fault, call (mach (Arith.ieee 53) (boxExt ![1 / 5, 0] (4 / 5))) 8 (.glob "cutting_plane_optim") [.ref 0, .ref 3, .num (-10), .ref 2] s1 = .exc (excOf fault) s2 := by
  have htol : 8 * (Arith.ieee 53).rnd (1 / 10 ^ 20) ≤ (4 / 5) ^ 2 * 1 := by
    have := (abs_le.mp ((Arith.ieee_accurate 53 2).rnd (1 / 10 ^ 20))).2
    rw [abs_of_pos (by positivity)] at this
    norm_num at this ⊢
    linarith
  have hsub : ball (![1 / 5, 0] : Vec 2) (4 / 5) ⊆ ball ![0, 0] 1 := fun x hx => by
    simp [ball, dotProduct, Fin.sum_univ_two] at hx ⊢
    nlinarith [sq_nonneg (x 1), sq_nonneg (x 0 - 1)]
  have hc : nrm (![1 / 5, 0] : Vec 2) ≤ 1 / 5 := by
    unfold nrm
    rw [Real.sqrt_le_iff]
    simp [dotProduct, Fin.sum_univ_two]
    norm_num
  have hat : UserAt 0 exampleHeap () := ⟨by decide, rfl, rfl⟩
  have hopt : OptionsAt (Arith.ieee 53) exampleHeap (.ref 2) ⟨2000, (Arith.ieee 53).rnd (1 / 10 ^ 20)⟩ := ⟨2, Env.empty, rfl, rfl, .inr ⟨rfl, rfl⟩, .inr ⟨rfl, by simp [literal]⟩⟩
  constructor
  · obtain ⟨s1, s2, k, y, -, h2, h3, h4, -⟩ := C116_feas (n := 2) (p := 53) (fuel := 0) (ext := boxExt ![1 / 5, 0] (4 / 5)) (own := fun _ => (· = 0)) le_rfl one_pos (by norm_num : (0 : ℝ) < 4 / 5) hc double_pair_bits.2 zero_le_one
      (boxOracle_inner (by norm_num) _) le_rfl (user_feas ..) trivial hat hopt (by rintro k ⟨⟩; decide) (lx := 1) (x := ![0, 0]) rfl (by decide) (by decide) hsub htol double_pair_bits.1
    exact ⟨s1, s2, k, y, h2, h3, h4 0⟩
  · obtain ⟨s1, s2, -, h⟩ := C116_optim (n := 2) (p := 53) (fuel := 0) (ext := boxExt ![1 / 5, 0] (4 / 5)) (own := fun _ => (· = 0)) le_rfl one_pos (by norm_num : (0 : ℝ) < 4 / 5) hc double_pair_bits.2 zero_le_one
      (boxOptim_inner (by norm_num) _) le_rfl (user_optim (fun g => rfl) (fun g => rfl)) trivial hat hopt (by rintro k ⟨⟩; decide) (lx := 1) (x := ![0, 0]) rfl (by decide) (by decide) hsub (g0 := -10) rfl (by norm_num) htol double_pair_bits.1
    refine ⟨s1, s2, h.imp ?_ id⟩
    rintro ⟨vb, vg, g, k, h1, rfl, h2⟩
    exact ⟨vb, g, k, h1, by norm_num at h2; linarith⟩

end Py

end Ellalgo
